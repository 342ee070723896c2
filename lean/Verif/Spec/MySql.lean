import Verif.Model.MySql
import Verif.Spec.Replication

namespace Flare

/-! What a MySQL slave makes of the bytes: packets, events, statements and the table.  Written after the MySQL
manual, not after the sender.  Keys are compared as they are (a binary collation). -/

/-! ### Packets and events -/

/-- The slave reads a message: packets numbered one after the other, up to one that is shorter than the largest. -/
def readMessage (m : Nat) : Nat → UInt32 → Bytes → Option (Bytes × UInt32 × Bytes)
  | 0, _, _ => none
  | n + 1, id, a :: b :: c :: i :: s =>
    let len := leNat [a, b, c]
    if i ≠ id.toUInt8 ∨ s.length < len then none
    else if len = m then
      match readMessage m n (id + 1) (s.drop len) with
      | none => none
      | some (d, id, rest) => some (s.take len ++ d, id, rest)
    else some (s.take len, id + 1, s.drop len)
  | _, _, _ => none

/-- A number of messages, up to the end. -/
def readMessages : Nat → UInt32 → Bytes → Option (List Bytes)
  | 0, _, s => if s = [] then some [] else none
  | n + 1, id, s =>
    match readMessage maxPacket (s.length + 1) id s with
    | none => none
    | some (b, id, rest) => (readMessages n id rest).map fun bs => b :: bs

/-- A packet as the slave sends it. -/
def sqlPacket (i : UInt8) (b : Bytes) : Bytes := leBytes 3 b.length ++ [i] ++ b

/-- A length all of whose bytes are below 128. -/
def SmallLen (n : Nat) : Prop := n % 256 < 128 ∧ n / 256 % 256 < 128 ∧ n / 65536 < 128

/-- A query event of the binary log, version 4: header of 19 bytes, post-header of 13 bytes, status block, name of the
database with its length, NUL, and the query up to the end. -/
structure LogQuery where
  time : Nat
  server : Nat
  length : Nat
  next : Nat
  thread : Nat
  db : Bytes
  query : Bytes
  deriving DecidableEq, Repr

/-- The slave reads an event; the byte in front says that all is well. -/
def readEvent (b : Bytes) : Option LogQuery :=
  let num := fun i n => leNat ((b.drop i).take n)
  let dl := num 28 1
  let st := num 31 2
  if b.length < 33 ∨ num 0 1 ≠ 0 ∨ num 5 1 ≠ 2 ∨ num 10 4 + 1 ≠ b.length ∨ b.length < 34 + st + dl ∨
      (b.drop (33 + st + dl)).head? ≠ some 0 then none
  else some { time := num 1 4, server := num 6 4, length := num 10 4, next := num 14 4, thread := num 20 4
              db := (b.drop (33 + st)).take dl, query := b.drop (34 + st + dl) }

/-- The slave reads the events it has been sent. -/
def readLog : Nat → UInt32 → Bytes → Option (List LogQuery)
  | _, _, [] => some []
  | 0, _, _ => none
  | n + 1, id, s =>
    match readMessage maxPacket (s.length + 1) id s with
    | none => none
    | some (b, id, rest) =>
      match readEvent b, readLog n id rest with
      | some e, some es => some (e :: es)
      | _, _ => none

/-- The copies sent one after the other, with the time of each. -/
def sqlSendAll (cf : SqlConf) : SqlLink → List (Int64 × SqlCopy) → Option (Bytes × SqlLink)
  | l, [] => some ([], l)
  | l, (now, c) :: cs =>
    match sqlSend cf now l c.delete c.entry with
    | none => none
    | some (b, l) =>
      match sqlSendAll cf l cs with
      | none => none
      | some (bs, l) => some (b ++ bs, l)

/-- Every event says where the next one begins: positions, modulo 2^32, follow from the lengths. -/
def LogPlaced : Nat → List LogQuery → Prop
  | _, [] => True
  | at_, e :: es => e.next = (at_ + e.length) % 4294967296 ∧ LogPlaced e.next es

/-- A copy whose value is whole, that fits an `int`, and whose event is not a multiple of the largest packet. -/
def SqlCopy.Fits (cf : SqlConf) (c : SqlCopy) : Prop :=
  c.entry.size.toNat ≤ c.entry.data.length ∧ 8192 + c.entry.key.length + 2 * c.entry.size.toNat ≤ intMax ∧
    (34 + cf.db.length + (sqlText cf c.delete c.entry).length) % maxPacket ≠ 0

/-! ### Statements -/

/-- What stands for a byte behind a backslash. -/
def sqlUnescape (c : UInt8) : Bytes :=
  if c = 48 then [0]
  else if c = 98 then [8]
  else if c = 110 then [10]
  else if c = 114 then [13]
  else if c = 116 then [9]
  else if c = 90 then [26]
  else if c = 37 ∨ c = 95 then [92, c]
  else [c]

/-- The rest of a string in quotes: a doubled quote is a quote. -/
def sqlString : Bytes → Option (Bytes × Bytes)
  | [] => none
  | [c] => if c = 39 then some ([], []) else none
  | c :: d :: s =>
    if c = 92 then (sqlString s).map fun x => (sqlUnescape d ++ x.1, x.2)
    else if c = 39 then
      if d = 39 then (sqlString s).map fun x => (39 :: x.1, x.2) else some ([], d :: s)
    else (sqlString (d :: s)).map fun x => (c :: x.1, x.2)

inductive SqlVal where
  | str (b : Bytes)
  | num (n : Nat)
  deriving DecidableEq, Repr

def skipBlank (s : Bytes) : Bytes := s.dropWhile (· = 32)

/-- The text that has to come. -/
def sqlExpect (w s : Bytes) : Option Bytes := if w.isPrefixOf s then some (s.drop w.length) else none

/-- A string or a number. -/
def sqlValue (s : Bytes) : Option (SqlVal × Bytes) :=
  match skipBlank s with
  | [] => none
  | c :: s =>
    if c = 39 then (sqlString s).map fun x => (.str x.1, x.2)
    else if isDigit c then
      some (.num (decValue ((c :: s).takeWhile isDigit)), (c :: s).dropWhile isDigit)
    else none

/-- Values up to the parenthesis. -/
def sqlValues : Nat → Bytes → Option (List SqlVal × Bytes)
  | 0, _ => none
  | n + 1, s =>
    match sqlValue s with
    | none => none
    | some (v, s) =>
      match skipBlank s with
      | 41 :: s => some ([v], s)
      | 44 :: s => (sqlValues n s).map fun x => (v :: x.1, x.2)
      | _ => none

/-- Rows up to the end. -/
def sqlRows : Nat → Bytes → Option (List (List SqlVal))
  | 0, _ => none
  | n + 1, s =>
    match skipBlank s with
    | 40 :: s =>
      match sqlValues (s.length + 1) s with
      | none => none
      | some (r, s) =>
        match skipBlank s with
        | [] => some [r]
        | 44 :: s => (sqlRows n s).map fun x => r :: x
        | _ => none
    | _ => none

/-- A condition: the key is a string, or two strings are equal. -/
inductive SqlCond where
  | key (b : Bytes)
  | eq (a b : Bytes)
  deriving DecidableEq, Repr

/-- Further conditions after `or`, up to the end. -/
def sqlOrs : Nat → Bytes → Option (List SqlCond)
  | 0, _ => none
  | n + 1, s =>
    match skipBlank s with
    | [] => some []
    | s =>
      match sqlExpect (ascii "or") (s.map lowerByte) with
      | none => none
      | some _ =>
        match sqlValue (s.drop 2) with
        | some (.str a, s) =>
          match skipBlank s with
          | 61 :: s =>
            match sqlValue s with
            | some (.str b, s) => (sqlOrs n s).map fun x => .eq a b :: x
            | _ => none
          | _ => none
        | _ => none

inductive SqlStmt where
  | replace (table : Bytes) (rows : List (List SqlVal))
  | delete (table : Bytes) (cond : List SqlCond)
  deriving DecidableEq, Repr

/-- The two statements. -/
def sqlStmt (s : Bytes) : Option SqlStmt :=
  match sqlExpect (ascii "REPLACE INTO `") s with
  | some s =>
    match sqlExpect (ascii "` VALUES ") (s.dropWhile (· ≠ 96)) with
    | some r => (sqlRows (r.length + 1) r).map (.replace (s.takeWhile (· ≠ 96)))
    | none => none
  | none =>
    match sqlExpect (ascii "DELETE FROM `") s with
    | none => none
    | some s =>
      match sqlExpect (ascii "` WHERE k=") (s.dropWhile (· ≠ 96)) with
      | none => none
      | some r =>
        match sqlValue r with
        | some (.str b, r) => (sqlOrs (r.length + 1) r).map fun x => .delete (s.takeWhile (· ≠ 96)) (.key b :: x)
        | _ => none

/-! ### The table -/

/-- A row: value, flag, version and expiry (a number, or the text of a date). -/
structure SqlRow where
  value : Bytes
  flag : Nat
  version : Nat
  expire : SqlVal
  deriving DecidableEq, Repr

abbrev SqlTable := List (Bytes × SqlRow)

def SqlTable.get (t : SqlTable) (k : Bytes) : Option SqlRow := (t.find? (·.1 = k)).map (·.2)

def SqlTable.put (t : SqlTable) (k : Bytes) (r : SqlRow) : SqlTable := (k, r) :: t.filter (·.1 ≠ k)

def SqlTable.putRows (t : SqlTable) : List (List SqlVal) → Option SqlTable
  | [] => some t
  | [.str k, .str v, .num f, .num n, x] :: rs => SqlTable.putRows (t.put k ⟨v, f, n, x⟩) rs
  | _ :: _ => none

def SqlCond.holds (k : Bytes) : SqlCond → Bool
  | .key b => k = b
  | .eq a b => a = b

/-- A statement for a table of that name; `none` is an error, with which replication stops. -/
def sqlExec (name : Bytes) (t : SqlTable) : SqlStmt → Option SqlTable
  | .replace n rows => if n = name then t.putRows rows else none
  | .delete n cs => if n = name then some (t.filter fun x => !cs.any (SqlCond.holds x.1)) else none

/-- The slave executes the text of a statement. -/
def sqlApply (name : Bytes) (t : SqlTable) (q : Bytes) : Option SqlTable :=
  match sqlStmt q with
  | some s => sqlExec name t s
  | none => none

/-- The statements one after the other, up to an error. -/
def sqlApplyAll (name : Bytes) : SqlTable → List Bytes → Option SqlTable
  | t, [] => some t
  | t, q :: qs =>
    match sqlApply name t q with
    | some t => sqlApplyAll name t qs
    | none => none

/-- What the table says about a key at a time; `date` reads the text of a date. -/
def SqlTable.lookup (date : Bytes → Option Int64) (t : SqlTable) (now : Int64) (k : Bytes) : Option Item :=
  match t.get k with
  | none => none
  | some r =>
    let x : Option Int64 := match r.expire with
      | .num n => some (Int64.ofNat n)
      | .str s => date s
    match x with
    | none => none
    | some x =>
      if 0 < x ∧ x ≤ now then none
      else some ⟨r.value, UInt32.ofNat r.flag, x, UInt64.ofNat r.version⟩

/-- A key that is the same inside quotes. -/
def SafeKey (k : Bytes) : Prop := ∀ c ∈ k, c ≠ 0 ∧ c ≠ 39 ∧ c ≠ 92

/-- A configuration a MySQL server can use: names without quotes that fit, dates without quotes. -/
def SqlConf.Sane (cf : SqlConf) : Prop :=
  (∀ c ∈ cf.table, c ≠ 0 ∧ c ≠ 96) ∧ cf.table.length ≤ 4096 ∧ (∀ c ∈ cf.db, c ≠ 0) ∧ cf.db.length < 256 ∧
    ∀ x, SafeKey (cf.clock x) ∧ (cf.clock x).length ≤ 64

/-- The copy that an event puts into the queue. -/
def SqlFeed.accepts (f : SqlFeed) : SqlEvent → List SqlCopy
  | .copy c => if f.on then [c] else []
  | _ => []

/-- The copies that are put into the queue. -/
def SqlFeed.accepted (f : SqlFeed) : List SqlEvent → List SqlCopy
  | [] => []
  | ev :: evs => f.accepts ev ++ (f.step ev).accepted evs

/-- Events at the master, with the copy for the MySQL slave of every write. -/
def sqlHistory (m : Store) : List Event → Store × List SqlCopy
  | [] => (m, [])
  | .write env _ r _ :: evs =>
    let o := step m env r.call
    let t := sqlHistory o.1 evs
    (t.1, (sqlCopyOf r o.2).toList ++ t.2)
  | .readMaster env e :: evs => sqlHistory (get m env e {}).1 evs
  | .readSlave _ _ :: evs => sqlHistory m evs
  | .flushMaster env :: evs => sqlHistory (truncate m env).1 evs

/-- A string behind its length, as the MySQL protocol has it for lengths below 251, and what follows. -/
def lenString : Bytes → Option (Bytes × Bytes)
  | [] => none
  | n :: s => if n.toNat < 251 ∧ n.toNat ≤ s.length then some (s.take n.toNat, s.drop n.toNat) else none

/-- `n` strings, one behind the other, and what follows. -/
def lenStrings : Nat → Bytes → Option (List Bytes × Bytes)
  | 0, s => some ([], s)
  | n + 1, s => (lenString s).bind fun x => (lenStrings n x.2).map fun y => (x.1 :: y.1, y.2)

/-- The definitions of columns in the messages of a result: one message each, between the number of columns and the first end
mark. -/
def columnMessages (msgs : List Bytes) : List Bytes := msgs.tail.takeWhile fun b => b.head? ≠ some 0xfe ∨ 9 ≤ b.length

end Flare
