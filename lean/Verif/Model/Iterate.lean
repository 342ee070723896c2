import Verif.Model.Dump

/-! Model of going through all keys with the three storage engines: `iter_begin`, `iter_next` and `iter_end` of
/repo/src/lib/storage_tch.cc:606-670, /repo/src/lib/storage_tcb.cc:606-675 and
/repo/src/lib/storage_kch.cc:597-663 while records come, go and move between
two calls.  `iter_next` holds the whole lock for writing, `set` and `remove` hold it for reading, so that a change happens between
two calls of `iter_next`, never in one.

What the engines do is not in /repo; it is modelled after Tokyo Cabinet 1.4 and Kyoto Cabinet 1.2.
* Both hash databases keep a record at a place in the file.  `tchdbiternext` keeps the place behind the record returned last.
  The cursor of Kyoto Cabinet keeps the place of the record itself; when this record is removed or rewritten elsewhere, the
  cursor is moved behind it (`escape_cursors`), and `step` goes on to the record after the one it finds there.
* A B+ tree keeps its records in a chain of leaves; a cursor is the number of a leaf and the index of a record in it, and
  is not touched when records come or go.  A leaf without records is passed over as long as it is in memory; once it has been
  dropped, the cursor has no place any more and the iteration is over.

Simplifications.
* The auto defragmentation (`storage-dfunit`, 0 by default) is off.
* Errors of the engines are left out: `iter_next` gives a key or the end. -/
namespace Flare

/-- Going through the keys: `next` gives a key or the end, `change` is what other threads do between two calls.  One list of
changes for each call; the keys returned, and whether the end has been reached. -/
def iterate {σ ε : Type} (next : σ → Option (Bytes × σ)) (change : ε → σ → σ) : σ → List (List ε) → List Bytes × Bool
  | _, [] => ([], false)
  | s, es :: rest =>
    match next (es.foldl (fun s e => change e s) s) with
    | none => ([], true)
    | some (k, s) => (k :: (iterate next change s rest).1, (iterate next change s rest).2)

/-- Going through the keys with nobody else at work, by a loop that reads what it is given (/repo/src/lib/op_dump.cc:182-200): the records
for which `gone` holds are removed by this (/repo/src/lib/storage_tcb.cc:479-485, 497-500).  The keys returned, whether the end has been reached
within `n` calls, and the state at the end. -/
def walk {σ : Type} (next : σ → Option (Bytes × σ)) (out : Bytes → σ → σ) (gone : Bytes → Bool) :
    Nat → σ → List Bytes × Bool × σ
  | 0, s => ([], false, s)
  | n + 1, s =>
    match next s with
    | none => ([], true, s)
    | some (k, s) =>
      (k :: (walk next out gone n (if gone k then out k s else s)).1,
        (walk next out gone n (if gone k then out k s else s)).2)

/-! ### Hash databases -/

/-- The records of a hash database: places in the file and keys, in the order of the file. -/
abbrev Records := List (Nat × Bytes)

/-- The first record at `c` or behind it. -/
def Records.from_ (f : Records) (c : Nat) : Option (Nat × Bytes) := f.find? fun r => decide (c ≤ r.1)

/-- A change of the file. -/
inductive FileEv where
  /-- a new record is written at a free place -/
  | put (o : Nat) (k : Bytes)
  | out (k : Bytes)
  /-- a record is rewritten at another place, which happens if it has grown -/
  | move (k : Bytes) (o : Nat)
  deriving DecidableEq, Repr

/-- A record at a place. -/
def Records.insert (f : Records) (o : Nat) (k : Bytes) : Records :=
  f.takeWhile (fun r => decide (r.1 < o)) ++ (o, k) :: f.dropWhile (fun r => decide (r.1 < o))

def Records.out (f : Records) (k : Bytes) : Records := f.filter fun r => decide (r.2 ≠ k)

/-- The place is taken. -/
def Records.taken (f : Records) (o : Nat) : Bool := f.any fun r => r.1 == o

/-- The key has a record. -/
def Records.has (f : Records) (k : Bytes) : Bool := f.any fun r => r.2 == k

/-- The file after a change; a change that cannot happen changes nothing. -/
def Records.apply (f : Records) : FileEv → Records
  | .put o k => if f.taken o || f.has k then f else f.insert o k
  | .out k => f.out k
  | .move k o => if f.taken o || !f.has k then f else (f.out k).insert o k

/-- `tchdbiternext` with /repo/src/lib/storage_tch.cc:624-656: file and the place to go on at. -/
def tchNext (s : Records × Nat) : Option (Bytes × (Records × Nat)) :=
  match s.1.from_ s.2 with
  | none => none
  | some (o, k) => some (k, (s.1, o + 1))

def tchChange (e : FileEv) (s : Records × Nat) : Records × Nat := (s.1.apply e, s.2)

/-- /repo/src/lib/storage_kch.cc:612-647: file and cursor, `none` before `jump`. -/
def kchNext (s : Records × Option Nat) : Option (Bytes × (Records × Option Nat)) :=
  match s.2 with
  | none =>
    match s.1.from_ 0 with
    | none => none
    | some (o, k) => some (k, (s.1, some o))
  | some c =>
    match s.1.from_ c with
    | none => none
    | some (o, _) =>
      match s.1.from_ (o + 1) with
      | none => none
      | some (o, k) => some (k, (s.1, some o))

/-- The cursor when the record of this key leaves its place. -/
def kchEscape (f : Records) (k : Bytes) : Option Nat → Option Nat
  | none => none
  | some c => if f.any (fun r => r.1 == c && r.2 == k) then some (c + 1) else some c

def kchChange (e : FileEv) (s : Records × Option Nat) : Records × Option Nat :=
  (s.1.apply e,
    match e with
    | .put _ _ => s.2
    | .out k => kchEscape s.1 k s.2
    | .move k o => if s.1.taken o || !s.1.has k then s.2 else kchEscape s.1 k s.2)

/-! ### The B+ tree -/

/-- A leaf with its number. -/
structure Leaf where
  id : Nat
  keys : List Bytes
  deriving DecidableEq, Repr

/-- The chain of leaves. -/
abbrev Leaves := List Leaf

/-- A cursor. -/
inductive TreePos where
  | start
  | at (id i : Nat)
  | lost
  deriving DecidableEq, Repr

/-- The first record of these leaves, empty ones are passed over. -/
def Leaves.first : Leaves → Option (Bytes × TreePos)
  | [] => none
  | l :: ls =>
    match l.keys with
    | [] => Leaves.first ls
    | k :: _ => some (k, .at l.id 0)

/-- The leaf with the number and those after it. -/
def Leaves.tail (t : Leaves) (id : Nat) : Leaves := t.dropWhile fun l => decide (l.id ≠ id)

/-- The next record, `tcbdbcurfirst` or `tcbdbcurnext`, with `tcbdbcurkey`. -/
def Leaves.next (t : Leaves) : TreePos → Option (Bytes × TreePos)
  | .start => t.first
  | .lost => none
  | .at id i =>
    match t.tail id with
    | [] => none
    | l :: ls =>
      match l.keys[i + 1]? with
      | some k => some (k, .at id (i + 1))
      | none => Leaves.first ls

/-- /repo/src/lib/storage_tcb.cc:621-657: tree and cursor. -/
def tcbNext (s : Leaves × TreePos) : Option (Bytes × (Leaves × TreePos)) :=
  match s.1.next s.2 with
  | none => none
  | some (k, p) => some (k, (s.1, p))

/-- A change of the tree. -/
inductive TreeEv where
  /-- a new record is put into a leaf, at the index where the order of the keys wants it -/
  | put (id p : Nat) (k : Bytes)
  | out (k : Bytes)
  /-- the records of a leaf from an index on go into a new leaf behind it -/
  | split (id n new : Nat)
  /-- a leaf without records is dropped from memory -/
  | drop (id : Nat)
  deriving DecidableEq, Repr

def Leaves.keys (t : Leaves) : List Bytes := t.flatMap (·.keys)

def Leaves.out (t : Leaves) (k : Bytes) : Leaves :=
  t.map fun l => { l with keys := l.keys.filter fun x => decide (x ≠ k) }

/-- The tree after a change; a change that cannot happen changes nothing. -/
def Leaves.apply (t : Leaves) : TreeEv → Leaves
  | .put id p k =>
    if k ∈ t.keys then t
    else t.map fun l => if l.id = id then { l with keys := l.keys.take p ++ k :: l.keys.drop p } else l
  | .out k => t.out k
  | .split id n new =>
    if new ∈ t.map (·.id) then t
    else t.flatMap fun l => if l.id = id then [⟨id, l.keys.take n⟩, ⟨new, l.keys.drop n⟩] else [l]
  | .drop id => t.filter fun l => decide (l.id ≠ id) || !l.keys.isEmpty

def tcbChange (e : TreeEv) (s : Leaves × TreePos) : Leaves × TreePos := (s.1.apply e, s.2)

end Flare
