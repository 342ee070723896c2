import Verif.Model.IndexSession
import Verif.Spec.Control
import Verif.Spec.Cluster

/-! What the commands of an index server mean, by the words of their lines. -/

namespace Flare

/-- The rest of a line: every word behind one blank or more, and blanks at the end. -/
def spaced : List (Nat × Bytes) → Nat → Bytes
  | [], k => List.replicate k chSpace
  | (n, x) :: ws, k => List.replicate (n + 1) chSpace ++ x ++ spaced ws k

/-- A line: blanks, its first word and the rest. -/
structure CmdLine where
  indent : Nat := 0
  cmd : Bytes
  args : List (Nat × Bytes) := []
  trail : Nat := 0
  /-- does it end with "\r\n"? -/
  cr : Bool := true
  deriving DecidableEq, Repr

/-- The line without its end. -/
def CmdLine.text (l : CmdLine) : Bytes := List.replicate l.indent chSpace ++ l.cmd ++ spaced l.args l.trail

/-- The bytes of a line. -/
def CmdLine.bytes (l : CmdLine) : Bytes := l.text ++ (if l.cr then crlf else [chNl])

/-- The words of a line. -/
def CmdLine.words (l : CmdLine) : List Bytes := l.cmd :: l.args.map (·.2)

/-- Lines of less than 1024 bytes, of words without NUL; not those that begin with the mark of a binary request
or of a forwarded one. -/
structure CmdLine.Ok (l : CmdLine) : Prop where
  words : ∀ x ∈ l.words, PlainKey x 1024
  short : l.text.length < 1024
  text : l.text.head? ≠ some chLt
  binary : l.text.head? ≠ some 0x80
  /-- an end of "\n" alone is not taken for more -/
  cr : l.cr = false → l.text.getLast? ≠ some chCr

/-- Digits and the sign. -/
def numChar (c : UInt8) : Bool := isDigit c || c == chMinus

/-- A number as it is typed: digits and a sign, an `int`. -/
def intWord (x : Bytes) : Option Int32 := if x.all numChar then lexInt x else none

/-- Name and port. -/
def nodeMeaning (r : Bytes → Int32 → IxReq) : List Bytes → Option IxReq
  | [n, p] => (intWord p).map (r n)
  | _ => none

/-- Name, port, role, and balance and partition if they are there. -/
def roleMeaning : List Bytes → Option IxReq
  | [n, p, r] =>
    match intWord p, roleCast r with
    | some p, some r => some (.role ⟨n, p, r, -1, -1⟩)
    | _, _ => none
  | [n, p, r, b] =>
    match intWord p, roleCast r, intWord b with
    | some p, some r, some b => some (.role ⟨n, p, r, b, -1⟩)
    | _, _, _ => none
  | [n, p, r, b, t] =>
    match intWord p, roleCast r, intWord b, intWord t with
    | some p, some r, some b, some t => some (.role ⟨n, p, r, b, t⟩)
    | _, _, _, _ => none
  | _ => none

def stateMeaning : List Bytes → Option IxReq
  | [n, p, s] =>
    match intWord p, stateCast s with
    | some p, some s => some (.state ⟨n, p, s⟩)
    | _, _ => none
  | _ => none

def killMeaning : List Bytes → Option IxReq
  | [i] => if i.all numChar then (lexUnsigned 32 i).map .kill else none
  | _ => none

def statsMeaning : List Bytes → Option IxReq
  | [] => some (.stats .default)
  | [x] =>
    if x = ascii "items" then some (.stats .items)
    else if x = ascii "slabs" then some (.stats .slabs)
    else if x = ascii "sizes" then some (.stats .sizes)
    else if x = ascii "threads" then some (.stats .threads)
    else if x = ascii "nodes" then some (.stats .nodes)
    else none
  | [x, y] =>
    if x = ascii "threads" then
      if y = ascii "request" then some (.stats .threadsRequest)
      else if y = ascii "slave" then some (.stats .threadsSlave)
      else if y = ascii "queue" then some (.stats .threadsQueue)
      else none
    else none
  | _ => none

def verbosityMeaning : List Bytes → Option IxReq
  | [l] => (intWord l).map fun l => .verbosity l.toInt false
  | [l, o] => if o = strNoreply then (intWord l).map fun l => .verbosity l.toInt true else none
  | _ => none

/-- A command without arguments. -/
def bareMeaning (r : IxReq) (as : List Bytes) : Option IxReq := if as = [] then some r else none

/-- What a line asks for. -/
def ixMeaning : List Bytes → Option IxReq
  | [] => none
  | c :: as =>
    if c = ascii "ping" then bareMeaning .ping as
    else if c = ascii "stats" then statsMeaning as
    else if c = ascii "node" then
      match as with
      | [] => none
      | v :: as =>
        if v = ascii "add" then nodeMeaning .add as
        else if v = ascii "remove" then nodeMeaning .remove as
        else if v = ascii "role" then roleMeaning as
        else if v = ascii "state" then stateMeaning as
        else none
    else if c = ascii "kill" then killMeaning as
    else if c = ascii "quit" then bareMeaning .quit as
    else if c = ascii "meta" then bareMeaning .metaInfo as
    else if c = ascii "verbosity" then verbosityMeaning as
    else if c = ascii "version" then bareMeaning .version as
    else if c = ascii "show" then (if as = [ascii "variables"] then some .variables else none)
    else if c = ascii "shutdown" then nodeMeaning .shutdown as
    else none

/-- The commands whose lines may go on: what is behind their last argument is not looked at, or not refused.  Also
`verbosity` with a number that runs into an option, and with `async`. -/
def lenient : List Bytes → Bool
  | [] => false
  | c :: as =>
    if c = ascii "stats" then
      match as with
      | [] | [_] => false
      | [x, _] => x ≠ ascii "threads"
      | _ => true
    else if c = ascii "show" then 2 ≤ as.length
    else if c = ascii "verbosity" then
      match as with
      | [] => false
      | [l] => !l.all numChar
      | [l, o] => !l.all numChar || o = strAsync
      | _ => true
    else c = ascii "node" && as.head? = some (ascii "role")

/-- The port of a `node state` runs into what is behind it. -/
def gluedPort : List Bytes → Bool
  | c :: v :: _ :: p :: _ => c = ascii "node" && v = ascii "state" && !p.all numChar && p.head?.all numChar
  | _ => false

/-- The commands of a list of lines, carried out in order: lines that mean nothing are answered with ERROR. -/
def ixMeant {σ : Type} (B : IxBack σ) : σ → List (List Bytes) → IxTalk σ
  | st, [] => { st := st, stop := .closed }
  | st, l :: ls =>
    match ixMeaning l with
    | none =>
      if B.asked st then { st := st, out := resultLine .error [], stop := .quit }
      else (ixMeant B st ls).after [] (resultLine .error [])
    | some r =>
      let p := ixPerform B st r
      if r = .quit ∨ B.asked p.1 = true then
        { st := p.1, did := [(r, p.2)], out := ixAnswer r p.2, stop := .quit }
      else (ixMeant B p.1 ls).after [(r, p.2)] (ixAnswer r p.2)

/-- What a command asks of the cluster, if anything. -/
def IxReq.asks (key : Bytes → Int32 → NodeKey) : IxReq → Option ICmd
  | .add n p => some (.add (key n p))
  | .remove n p => some (.remove (key n p))
  | .role r => some (.role (key r.name r.port) r.role r.balance.toInt r.partition.toInt)
  | .state r => some (.state (key r.name r.port) r.state)
  | .shutdown n p => some (.down (key n p))
  | _ => none

/-- What is asked of the cluster in a session. -/
def askedOf (key : Bytes → Int32 → NodeKey) (did : List (IxReq × IxDid)) : List ICmd :=
  did.filterMap fun x => x.1.asks key

/-- Commands one after the other, each with what fails around it. -/
def withEnv : List IEnv → List ICmd → List IAct
  | _, [] => []
  | es, c :: cs => .cmd (es.headD {}) c :: withEnv (es.drop 1) cs

end Flare
