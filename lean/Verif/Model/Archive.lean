import Verif.Model.FileCoordinator
import Verif.Model.Dump
import Verif.Model.MultiIndex

/-! The state of the index server as the text that is stored, /repo/src/lib/cluster.cc:1741-1809 (`_save` and `_load`)
and /repo/src/lib/cluster.h:112-134 (`node::serialize`).

The text is made and read by boost (`xml_oarchive`, `xml_iarchive`), which is modelled after its description:
* writing: the head, for every member its name as a tag, the contents, the name as end tag, with line breaks and tabs;
  the members of a map are `count`, `item_version` and the items with `first` and `second`; the first item has more
  words in its tags; in strings the characters `<`, `>`, `&`, `"` and `'` are replaced by entities;
* reading: one after the other; a tag is anything between `<` and `>` that begins with a letter or `_`, the words behind
  the name are not looked at; the name of an end tag has to be that of the member, except for the members read by
  `_load` itself; a map is emptied when its tag has been read, and filled item by item; numbers are read as by `>>`; what
  cannot be read ends it with an exception.

Simplifications:
* The head has to be the one that is written (the reader would accept others).
* A number that cannot be read leaves the member as it was.
* Only the five entities that are written can be read.
* The keys of a map are kept in the order in which they are read; writing has them in their order.
* `node::serialize` and the enums: enums are ints. -/
namespace Flare

/-- `cluster::node`, /repo/src/lib/cluster.h:112-121. -/
structure ArcNode where
  name : Bytes
  port : Int
  role : Int
  state : Int
  partition : Int
  balance : Int
  threadType : Int
  deriving DecidableEq, Repr

/-- `_node_map_version`, `_node_map` and `_thread_type`. -/
structure ArcState where
  version : Nat
  nodes : List (Bytes × ArcNode)
  threadType : Int
  deriving DecidableEq, Repr

/-! ### Writing -/

/-- A character of a string. -/
def xmlChar (c : UInt8) : Bytes :=
  if c = 60 then ascii "&lt;" else if c = 62 then ascii "&gt;" else if c = 38 then ascii "&amp;"
  else if c = 34 then ascii "&quot;" else if c = 39 then ascii "&apos;" else [c]

def xmlText (s : Bytes) : Bytes := s.flatMap xmlChar

/-- Line break and `d` tabs. -/
def xmlIndent (d : Nat) : Bytes := chNl :: List.replicate d 9

def xmlOpen (name more : Bytes) : Bytes := chLt :: name ++ more ++ [chGt]

def xmlShut (name : Bytes) : Bytes := chLt :: 47 :: name ++ [chGt]

/-- A member without members of its own. -/
def xmlLeaf (d : Nat) (name body : Bytes) : Bytes := xmlIndent d ++ (xmlOpen name [] ++ (body ++ xmlShut name))

/-- A member with members. -/
def xmlTree (d : Nat) (name more body : Bytes) : Bytes :=
  xmlIndent d ++ (xmlOpen name more ++ (body ++ (xmlIndent d ++ xmlShut name)))

/-- `node::serialize`, /repo/src/lib/cluster.h:125-133. -/
def arcFields (n : ArcNode) : Bytes :=
  xmlLeaf 3 (ascii "node_server_name") (xmlText n.name) ++ (xmlLeaf 3 (ascii "node_server_port") (decimalInt n.port) ++
    (xmlLeaf 3 (ascii "node_role") (decimalInt n.role) ++ (xmlLeaf 3 (ascii "node_state") (decimalInt n.state) ++
      (xmlLeaf 3 (ascii "node_partition") (decimalInt n.partition) ++
        (xmlLeaf 3 (ascii "node_balance") (decimalInt n.balance) ++
          xmlLeaf 3 (ascii "node_thread_type") (decimalInt n.threadType))))))

/-- The words in the first tag of a class. -/
def arcClass (first : Bool) (id : Bytes) : Bytes :=
  if first then ascii " class_id=\"" ++ id ++ ascii "\" tracking_level=\"0\" version=\"0\"" else []

def arcItem (first : Bool) (e : Bytes × ArcNode) : Bytes :=
  xmlTree 1 (ascii "item") (arcClass first (ascii "1"))
    (xmlLeaf 2 (ascii "first") (xmlText e.1) ++
      xmlTree 2 (ascii "second") (arcClass first (ascii "2")) (arcFields e.2))

def arcItems : Bool → List (Bytes × ArcNode) → Bytes
  | _, [] => []
  | first, e :: l => arcItem first e ++ arcItems false l

/-- A member at the top. -/
def xmlTop (name more body : Bytes) : Bytes := xmlOpen name more ++ (body ++ xmlShut name)

def arcHead : Bytes :=
  ascii "<?xml version=\"1.0\" encoding=\"UTF-8\" standalone=\"yes\" ?>\n<!DOCTYPE boost_serialization>\n<boost_serialization signature=\"serialization::archive\" version=\"10\">\n"

def arcVersion (a : ArcState) : Bytes := xmlTop (ascii "version") [] (decimal a.version)

/-- Node map and thread type. -/
def arcRest (a : ArcState) : Bytes :=
  xmlTop (ascii "node_map") (arcClass true (ascii "0"))
      (xmlLeaf 1 (ascii "count") (decimal a.nodes.length) ++ (xmlLeaf 1 (ascii "item_version") (decimal 0) ++
        (arcItems true a.nodes ++ [chNl]))) ++
    (chNl :: xmlTop (ascii "thread_type") [] (decimalInt a.threadType))

def arcTail : Bytes := ascii "\n</boost_serialization>\n"

/-- Up to the end of the last member. -/
def arcCore (a : ArcState) : Bytes := arcHead ++ (arcVersion a ++ (chNl :: arcRest a))

/-- `_save`, /repo/src/lib/cluster.cc:1750-1757. -/
def arcWrite (a : ArcState) : Bytes := arcCore a ++ arcTail

/-- What former versions of the program stored, without the version (see /repo/src/lib/cluster.cc:1794-1800). -/
def arcWriteOld (a : ArcState) : Bytes := arcHead ++ (arcRest a ++ arcTail)

/-! ### Reading -/

def xmlBlank (c : UInt8) : Bool := c = 32 || c = 9 || c = 10 || c = 13

def xmlNameStart (c : UInt8) : Bool := (97 ≤ c && c ≤ 122) || (65 ≤ c && c ≤ 90) || c = 95

/-- The bytes up to `c`, which has to come, and the rest behind it. -/
def xmlUpTo (c : UInt8) (s : Bytes) : Option (Bytes × Bytes) :=
  match s.dropWhile (· ≠ c) with
  | [] => none
  | _ :: rest => some (s.takeWhile (· ≠ c), rest)

/-- `load_start`. -/
def xmlStart (s : Bytes) : Option Bytes :=
  match s.dropWhile xmlBlank with
  | 60 :: c :: s => if xmlNameStart c then (xmlUpTo chGt (c :: s)).map (·.2) else none
  | _ => none

/-- `load_end`: the name and the rest. -/
def xmlEnd (s : Bytes) : Option (Bytes × Bytes) :=
  match s.dropWhile xmlBlank with
  | 60 :: 47 :: s => xmlUpTo chGt s
  | _ => none

/-- A member: tag, contents, end tag. -/
def xmlMember {α : Type} (name : Bytes) (p : Bytes → Option (α × Bytes)) (s : Bytes) : Option (α × Bytes) :=
  (xmlStart s).bind fun s => (p s).bind fun (x, s) => (xmlEnd s).bind fun (n, s) => if n = name then some (x, s) else none

/-- A number, `>>`. -/
def xmlNat (s : Bytes) : Option (Nat × Bytes) :=
  let s := s.dropWhile xmlBlank
  let d := s.takeWhile isDigit
  if d.isEmpty || decide (2 ^ 64 ≤ decValue d) then none else some (decValue d, s.dropWhile isDigit)

/-- An `int`, `>>`. -/
def xmlInt (s : Bytes) : Option (Int × Bytes) :=
  let s := s.dropWhile xmlBlank
  let neg := s.head? = some chMinus
  let s := if neg then s.drop 1 else s
  let d := s.takeWhile isDigit
  if d.isEmpty then none
  else
    let v : Int := if neg then - (decValue d : Int) else decValue d
    if v < -2147483648 ∨ 2147483647 < v then none else some (v, s.dropWhile isDigit)

/-- Entities back to characters; the argument is what is left to be read. -/
def xmlPlain : Nat → Bytes → Option Bytes
  | 0, s => if s = [] then some [] else none
  | n + 1, s =>
    match s with
    | [] => some []
    | c :: t =>
      if c = 38 then
        if (ascii "lt;").isPrefixOf t then (xmlPlain n (t.drop 3)).map (60 :: ·)
        else if (ascii "gt;").isPrefixOf t then (xmlPlain n (t.drop 3)).map (62 :: ·)
        else if (ascii "amp;").isPrefixOf t then (xmlPlain n (t.drop 4)).map (38 :: ·)
        else if (ascii "quot;").isPrefixOf t then (xmlPlain n (t.drop 5)).map (34 :: ·)
        else if (ascii "apos;").isPrefixOf t then (xmlPlain n (t.drop 5)).map (39 :: ·)
        else none
      else (xmlPlain n t).map (c :: ·)

/-- A string: up to the next tag, which is not taken. -/
def xmlString (s : Bytes) : Option (Bytes × Bytes) :=
  match s.dropWhile (· ≠ chLt) with
  | [] => none
  | rest@(_ :: _) =>
    let t := s.takeWhile (· ≠ chLt)
    (xmlPlain t.length t).map fun x => (x, rest)

/-- `node::serialize` when reading. -/
def arcReadFields (s : Bytes) : Option (ArcNode × Bytes) :=
  (xmlMember (ascii "node_server_name") xmlString s).bind fun (name, s) =>
  (xmlMember (ascii "node_server_port") xmlInt s).bind fun (port, s) =>
  (xmlMember (ascii "node_role") xmlInt s).bind fun (role, s) =>
  (xmlMember (ascii "node_state") xmlInt s).bind fun (state, s) =>
  (xmlMember (ascii "node_partition") xmlInt s).bind fun (partition, s) =>
  (xmlMember (ascii "node_balance") xmlInt s).bind fun (balance, s) =>
  (xmlMember (ascii "node_thread_type") xmlInt s).bind fun (tt, s) =>
  some (⟨name, port, role, state, partition, balance, tt⟩, s)

def arcReadItem (s : Bytes) : Option ((Bytes × ArcNode) × Bytes) :=
  xmlMember (ascii "item") (fun s =>
    (xmlMember (ascii "first") xmlString s).bind fun (k, s) =>
    (xmlMember (ascii "second") arcReadFields s).bind fun (n, s) => some ((k, n), s)) s

/-- `map::insert`: a key that is there already stays. -/
def arcInsert (l : List (Bytes × ArcNode)) (e : Bytes × ArcNode) : List (Bytes × ArcNode) :=
  if l.any (fun x => x.1 = e.1) then l else l ++ [e]

/-- The items, into the map; `none` as rest is the exception. -/
def arcReadItems : Nat → Bytes → List (Bytes × ArcNode) → List (Bytes × ArcNode) × Option Bytes
  | 0, s, l => (l, some s)
  | n + 1, s, l =>
    match arcReadItem s with
    | none => (l, none)
    | some (e, s) => arcReadItems n s (arcInsert l e)

/-- `ia >> make_nvp("node_map", _node_map)`. -/
def arcReadMap (s : Bytes) (l : List (Bytes × ArcNode)) : List (Bytes × ArcNode) × Option Bytes :=
  match xmlStart s with
  | none => (l, none)
  | some s =>
    match xmlMember (ascii "count") xmlNat s with
    | none => ([], none)
    | some (n, s) =>
      match xmlMember (ascii "item_version") xmlNat s with
      | none => ([], none)
      | some (_, s) =>
        match arcReadItems n s [] with
        | (l, none) => (l, none)
        | (l, some s) => (l, (xmlEnd s).map (·.2))

/-- A number at the top, into a member: its value or the old one, and the rest. -/
def arcReadTop {α : Type} (p : Bytes → Option (α × Bytes)) (s : Bytes) (old : α) : α × Option Bytes :=
  match (xmlStart s).bind p with
  | none => (old, none)
  | some (x, s) => (x, (xmlEnd s).map (·.2))

/-- Node map and thread type, /repo/src/lib/cluster.cc:1791-1792 and :1798-1799. -/
def arcReadRest (s : Bytes) (m : ArcState) : ArcState × Bool :=
  match arcReadMap s m.nodes with
  | (l, none) => ({ m with nodes := l }, false)
  | (l, some s) =>
    match arcReadTop xmlInt s m.threadType with
    | (t, none) => ({ m with nodes := l, threadType := t }, false)
    | (t, some _) => ({ m with nodes := l, threadType := t }, true)

/-- The head, read when the archive object is made. -/
def arcReadHead (s : Bytes) : Option Bytes := if arcHead.isPrefixOf s then some (s.drop arcHead.length) else none

/-- The first block, /repo/src/lib/cluster.cc:1788-1792. -/
def arcRead (x : Bytes) (m : ArcState) : ArcState × Bool :=
  match arcReadHead x with
  | none => (m, false)
  | some s =>
    match arcReadTop xmlNat s m.version with
    | (v, none) => ({ m with version := v }, false)
    | (v, some s) => arcReadRest s { m with version := v }

/-- The second block, /repo/src/lib/cluster.cc:1795-1799. -/
def arcReadOld (x : Bytes) (m : ArcState) : ArcState × Bool :=
  match arcReadHead x with
  | none => (m, false)
  | some s => arcReadRest s { m with version := 0 }

/-- The check, /repo/src/lib/cluster.cc:1811-1823. -/
def ArcState.sane (m : ArcState) : Bool := m.nodes.all fun e => e.2.threadType < m.threadType

/-- `_load` of the text `x`, /repo/src/lib/cluster.cc:1774-1825: what is in memory afterwards, and whether it has
worked. -/
def arcLoad (x : Bytes) (m : ArcState) : ArcState × Bool :=
  if x = [] then (m, m.sane)
  else match arcRead x m with
    | (m, true) => (m, m.sane)
    | (m, false) =>
      match arcReadOld x m with
      | (m, true) => (m, m.sane)
      | (m, false) => (m, false)

/-- `_load` with the file, /repo/src/lib/file_coordinator.cc:68-71. -/
def arcLoadFile (d : Disk) (m : ArcState) : ArcState × Bool := arcLoad d.load m

/-- `_update`, /repo/src/lib/cluster.cc:1857-1869, with the states that are stored at the two requests: what is in memory afterwards, and whether the partition map is made
anew. -/
def arcUpdate (now next : Bytes) (m : ArcState) : ArcState × Bool := arcLoad (zkRestore now next) m

end Flare
