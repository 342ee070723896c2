import Verif.Model.Connection

/-! What the reading side of a connection is meant to be: a reader of a flat byte stream. -/
namespace Flare

/-- The bytes still to be read, in order. -/
def Conn.stream (c : Conn) : Bytes := c.rest ++ c.net.flatten

/-- Pieces from the network are not empty; the position lies in the buffer. -/
def Conn.Ok (c : Conn) : Prop :=
  (∀ s ∈ c.net, s ≠ []) ∧ ∀ w pos, c.buf = some (w, pos) → pos ≤ w.length

/-- Unless a lazily deleted buffer is still around, it is empty, and exactly one byte has
arrived. -/
def Conn.Fresh (c : Conn) : Prop :=
  c.buf = none ∨ c.rest ≠ [] ∨ ∀ s net, c.net = s :: net → s.length ≠ 1

/-- A sequence of reads. -/
inductive ReadCall where
  | line
  | size (n : Nat)
  deriving DecidableEq, Repr

/-- The results of a sequence of reads on a connection; `none` ends it. -/
def Conn.reads : List ReadCall → Conn → List (Option Bytes)
  | [], _ => []
  | .line :: cs, c =>
    match c.readline with
    | none => [none]
    | some (l, c) => some l :: Conn.reads cs c
  | .size n :: cs, c =>
    match c.readsize n with
    | none => [none]
    | some (d, c) => some d :: Conn.reads cs c

/-- The same on a flat stream. -/
def flatReads : List ReadCall → Bytes → List (Option Bytes)
  | [], _ => []
  | .line :: cs, s =>
    match readLine s with
    | none => [none]
    | some (l, s) => some l :: flatReads cs s
  | .size n :: cs, s =>
    if s.length < n then [none] else some (s.take n) :: flatReads cs (s.drop n)

/-- A request line without NUL that does not end in two carriage returns (as the line is seen
after one of them has been removed). -/
def CleanLine (s : Bytes) : Prop :=
  ∀ l rest, readLine s = some (l, rest) → 0 ∉ l ∧ l.dropLast.getLast? ≠ some chCr

/-- Requests one after the other on a connection. -/
def Conn.decodeWrites (now : Int64) (first q : Bytes) : Nat → Conn →
    Except Fault (List WriteReq × Conn)
  | 0, c => .ok ([], c)
  | n + 1, c =>
    match Conn.decodeWrite now first q c with
    | .error f => .error f
    | .ok (r, c) =>
      match Conn.decodeWrites now first q n c with
      | .error f => .error f
      | .ok (rs, c) => .ok (r :: rs, c)

/-- Whenever one of the first `n` requests is about to be read, the connection is fresh. -/
def Conn.FreshRun (now : Int64) (first q : Bytes) : Nat → Conn → Prop
  | 0, _ => True
  | n + 1, c => c.Fresh ∧ ∀ r c', Conn.decodeWrite now first q c = .ok (r, c') →
      Conn.FreshRun now first q n c'

end Flare
