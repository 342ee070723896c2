import Verif.Model.Rebuild
import Verif.Spec.Replication

/-! When a replica built from a dump and copies can be expected to equal its master. -/
namespace Flare

/-- The copies of writes of key `k`, in the order they were sent. -/
def sentCopies (k : Bytes) (xs : List Sent) : List WriteReq :=
  xs.filterMap fun
    | .copy c => if c.entry.key = k then some c else none
    | .dump _ => none

/-- The dumped records of key `k`. -/
def sentDumps (k : Bytes) (xs : List Sent) : List Entry :=
  xs.filterMap fun
    | .copy _ => none
    | .dump e => if e.key = k then some e else none

/-- The copies of writes of key `k`, in the order they arrived. -/
def arrivedCopies (k : Bytes) (as : List (Env × Arrival)) : List WriteReq :=
  as.filterMap fun
    | (_, .copy c) => if c.entry.key = k then some c else none
    | _ => none

/-- The dumped records of key `k` that arrived. -/
def arrivedDumps (k : Bytes) (as : List (Env × Arrival)) : List Entry :=
  as.filterMap fun
    | (_, .dump e) => if e.key = k then some e else none
    | _ => none

/-- Versions grow from write to write: a value gets a version greater than every version before, a
deletion one that is not smaller.  `v` is the version so far. -/
def Growing (v : UInt64) : List WriteReq → Prop
  | [] => True
  | c :: cs => (if c.cmd = .set then v < c.entry.version else v ≤ c.entry.version) ∧
    c.entry.version ≠ 0 ∧ Growing c.entry.version cs

/-- The replica does not forget the deletion of key `k` while the arrivals run. -/
def StillKnows (k : Bytes) : Store → List (Env × Arrival) → Prop
  | _, [] => True
  | s, (env, a) :: as =>
    (Remembered s k → Remembered (a.apply s env) k) ∧ StillKnows k (a.apply s env) as

/-- The version of the record of `k`, expired or not; 0 if there is none. -/
def recordVersion (s : Store) (k : Bytes) : UInt64 :=
  match lookup s Int64.minValue k with
  | some it => it.version
  | none => 0

/-- The item an entry stands for. -/
def Entry.item (e : Entry) : Item := ⟨e.data, e.flag, e.expire, e.version⟩

/-- A write at the master is a client's request. -/
def MEvent.clientWrite : MEvent → Prop
  | .write _ path r => ClientWrite r ∧ PlainPath path
  | _ => True

/-- Nothing arrives at the replica that the master has not sent. -/
def Arrival.fromMaster (xs : List Sent) : Arrival → Prop
  | .copy c => .copy c ∈ xs
  | .dump e => .dump e ∈ xs
  | .read _ => True

/-- What may arrive at a replica that others write to as well: what the master has sent of `k`, records of `k` whose values
are in `old`, and anything for other keys. -/
def Arrival.expected (k : Bytes) (old : Item → Prop) (xs : List Sent) : Arrival → Prop
  | .copy c => if c.entry.key = k then .copy c ∈ xs else Sendable c 8192
  | .dump e => e.key = k → .dump e ∈ xs ∨ (e.Ok ∧ old ⟨e.data, e.flag, e.expire, e.version⟩)
  | .read _ => True

instance (xs : List Sent) (a : Arrival) : Decidable (a.fromMaster xs) := by
  cases a <;> simp only [Arrival.fromMaster] <;> infer_instance

instance decGrowing : (v : UInt64) → (cs : List WriteReq) → Decidable (Growing v cs)
  | _, [] => isTrue trivial
  | v, c :: cs =>
    have := decGrowing c.entry.version cs
    (inferInstance : Decidable ((if c.cmd = .set then v < c.entry.version
      else v ≤ c.entry.version) ∧ c.entry.version ≠ 0 ∧ Growing c.entry.version cs))

instance (s : Store) (k : Bytes) : Decidable (Remembered s k) :=
  (inferInstance : Decidable (dbGet s.db k ≠ none ∨ tombGet s.cache k ≠ none))

instance decStillKnows (k : Bytes) : (s : Store) → (as : List (Env × Arrival)) →
    Decidable (StillKnows k s as)
  | _, [] => isTrue trivial
  | s, (env, a) :: as =>
    have := decStillKnows k (a.apply s env) as
    (inferInstance : Decidable ((Remembered s k → Remembered (a.apply s env) k) ∧
      StillKnows k (a.apply s env) as))

/-- The version the store knows for `k`: of its record, else of its cached deletion, else 0. -/
def lastVersion (s : Store) (k : Bytes) : UInt64 :=
  match lookup s Int64.minValue k with
  | some it => it.version
  | none =>
    match tombGet s.cache k with
    | some t => t.version
    | none => 0

/-- A write is a client's in the sense of `Cmd.client`: it names no version, except in cas. -/
def MEvent.unversioned : MEvent → Prop
  | .write _ _ r => r.call.client
  | _ => True

/-- The master does not forget the deletion of key `k` meanwhile. -/
def MasterKnows (k : Bytes) : Store → List MEvent → Prop
  | _, [] => True
  | m, ev :: evs =>
    (Remembered m k → Remembered (ev.apply m).1 k) ∧ MasterKnows k (ev.apply m).1 evs

end Flare
