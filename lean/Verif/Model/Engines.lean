import Verif.Model.Storage
import Verif.Model.Text

/-! Model of the other two storages, `storage_tcb` (B+ tree of Tokyo Cabinet) and `storage_kch` (hash
database of Kyoto Cabinet), as far as they differ from `storage_tch` (Model/Storage).

The three source files are copies of each other.  Line by line, /repo/src/lib/storage_tcb.cc differs
in `incr` (an expired record), in the calls of the library, in the iteration (a cursor) and in the
prefix search (Model/Keys); /repo/src/lib/storage_kch.cc in the calls of the library, in
`synchronize()` after a write and in the iteration.

Simplifications.
* As in Model/Storage the calls run one after the other.  That `storage_tcb::incr` may block itself
  is in Model/Locks.
* `tcbdbget3` returns a pointer into the cache of the library, which another thread may overwrite
  while the header is read; this is not modelled. -/
namespace Flare

inductive Engine where
  | tch | tcb | kch
  deriving DecidableEq, Repr

/-- The answers of the outside, with the success of `HashDB::synchronize()`. -/
structure EngEnv where
  env : Env
  syncOk : Bool := true
  deriving DecidableEq, Repr

/-! ### storage_tcb -/

/-- `storage_tcb::incr`, /repo/src/lib/storage_tcb.cc:312-442: as in `storage_tch`, but `e_current.key`
is never set (:337-341), so that the record to remove (:425-428) is the one of the empty key. -/
def tcbIncr (s : Store) (env : Env) (e : Entry) (value : UInt64) (increment : Bool) (b : Beh) :
    Store × Out :=
  match incrLocked s env e value increment b with
  | (s, o, none) => (s, o)
  | (s, o, some cur) => ((removeExpired s env { cur with key := [] }).1, o)

/-! ### storage_kch -/

/-- `HashDB::set(key, p, header_size + e.size)`, /repo/src/lib/storage_kch.cc:266: lengths are
`size_t`. -/
def kchPut (s : Store) (e : Entry) : Option Store :=
  if headerSize + e.size.toNat < 2 ^ 64 then
    some { s with db := dbPut s.db e.key (serializeHeader e ++ e.data.take e.size.toNat) }
  else none

/-- The end of a write, /repo/src/lib/storage_kch.cc:266-283, 398-412: `r` is assigned before
`synchronize()` is called, and the record stays if that fails. -/
def kchStore (s : Store) (x : EngEnv) (e : Entry) (r : Result) : Store × Out :=
  match kchPut s e with
  | none => (s, ⟨.ub, none, e⟩)
  | some s' =>
    if !x.env.putOk then (s, ⟨.err, none, e⟩)
    else if e.option &&& optNoreply = 0 ∧ x.syncOk = false then (s', ⟨.err, some .stored, e⟩)
    else (s', ⟨.ok, some r, e⟩)

/-- `storage_kch::set`, /repo/src/lib/storage_kch.cc:126-308. -/
def kchSet (s : Store) (x : EngEnv) (e : Entry) (b : Beh) : Store × Out :=
  let (s, cur, ex) := setCurrent s x.env e b
  let st := setState x.env.now b cur ex
  match setCheck st b e.version cur.version with
  | .error r => (s, ⟨.ok, some r, e⟩)
  | .ok v =>
    let e := { e with version := v }
    match setPrepare st b e cur with
    | .error () => (s, ⟨.err, none, e⟩)
    | .ok none => (s, ⟨.ub, none, e⟩)
    | .ok (some e) => kchStore s x e (if b.touch then .touched else .stored)

/-- `storage_kch::incr`, /repo/src/lib/storage_kch.cc:310-434. -/
def kchIncr (s : Store) (x : EngEnv) (e : Entry) (value : UInt64) (increment : Bool) (b : Beh) :
    Store × Out :=
  match dbGet s.db e.key with
  | none => (s, ⟨.ok, some .notFound, e⟩)
  | some raw =>
    match unserializeHeader raw { key := [] } with
    | (_, false) => (s, ⟨.err, none, e⟩)
    | (cur, true) =>
      let cur := { cur with key := e.key }
      if raw.length - headerSize ≠ cur.size.toNat then (s, ⟨.err, none, e⟩)
      else if isExpired b.skipTimestamp cur.expire x.env.now then
        ((removeExpired s x.env cur).1, ⟨.ok, some .notFound, e⟩)
      else
        let m := incrValue (leadingNumber (raw.drop headerSize)) value increment
        let d := decimal m.toNat
        let e := { e with
          flag := cur.flag
          expire := cur.expire
          size := UInt64.ofNat d.length
          version := cur.version + 1
          data := d }
        kchStore s x e .stored

/-- `storage_kch::iter_next`, /repo/src/lib/storage_kch.cc:612-647: the key is copied with its
length. -/
def kchIterNext (s : Store) (ans : Iteration) : Iteration :=
  if !s.iterLock then .error else ans

/-! ### One interface -/

/-- One call to a storage. -/
def engStep (g : Engine) (s : Store) (x : EngEnv) : Cmd → Store × Out
  | .set e b => if g = .kch then kchSet s x e b else set s x.env e b
  | .incr e v i b =>
    match g with
    | .tch => incr s x.env e v i b
    | .tcb => tcbIncr s x.env e v i b
    | .kch => kchIncr s x e v i b
  | c => step s x.env c

def engRun (g : Engine) (s : Store) : List (EngEnv × Cmd) → Store
  | [] => s
  | (x, c) :: rest => engRun g (engStep g s x c).1 rest

def engOuts (g : Engine) (s : Store) : List (EngEnv × Cmd) → List Out
  | [] => []
  | (x, c) :: rest => (engStep g s x c).2 :: engOuts g (engStep g s x c).1 rest

end Flare
