import Verif.Spec.Failover

/-! What is expected of a partition whose clients also delete keys. -/
namespace Flare

/-- A node that has never heard of key `k`, that holds `x`, which does not expire, or that remembers that the value with a
version was deleted. -/
inductive Trace where
  | never
  | value (x : Item)
  | deleted (v : UInt64)
  deriving DecidableEq

def TraceAt (k : Bytes) (x : Trace) (s : Store) : Prop :=
  s.Ok ∧ AbsoluteStore s ∧ 0 < s.cacheSize ∧
    match x with
    | .never => ¬ Remembered s k
    | .value x => x.version ≠ 0 ∧ ∀ t, lookup s t k = some x
    | .deleted v => v ≠ 0 ∧ Remembered s k ∧ lastVersion s k = v ∧ ∀ t, lookup s t k = none

def Trace.version : Trace → UInt64
  | .never => 0
  | .value x => x.version
  | .deleted v => v

/-- A copied value does not come to a node that has already carried out the deletion of this value or of a later one. -/
def NotOvertaken (k : Bytes) (s : Store) (c : WriteReq) : Prop :=
  c.entry.key = k → c.cmd ≠ .delete → lookup s Int64.minValue k = none → lastVersion s k < c.entry.version

/-- Requests are clients' requests; key `k` is only given values that do not expire, or deleted; versions are named in cas
only, and what is sent fits into an `int`; the nodes' databases do as they are told; deletions are not overtaken. -/
def GEv.plain (k : Bytes) (g : Group) : GEv → Prop
  | .write i env path r _ =>
    ClientWrite r ∧ PlainPath path ∧
      (r.entry.key = k → r.call.client ∧ (r.cmd.copy = .set ∧ ¬ 0 < r.entry.expire ∨ r.cmd.copy = .delete) ∧
        ∀ c, (atMaster (g.store i) env path r).2 = some c → (encodeWrite c).isSome)
  | .arrive f env | .again f env =>
    env.putOk = true ∧ env.outOk = true ∧ ∀ x, g.flying[f]? = some x → NotOvertaken k (g.store x.dest) x.copy
  | .put _ env => env.putOk = true ∧ env.outOk = true
  | _ => True

/-- ... and no node's cache of deletions loses `k`. -/
def Plainly (rep : Bool) (k : Bytes) : Group → List GEv → Prop
  | _, [] => True
  | g, ev :: evs => ev.plain k g ∧ (∀ i, Remembered (g.store i) k → Remembered ((gStep rep g ev).store i) k) ∧
    Plainly rep k (gStep rep g ev) evs

/-- As `GEv.plain`, without the last condition; copies of `k` come to a node in the order in which they were sent. -/
def GEv.inOrder (k : Bytes) (g : Group) : GEv → Prop
  | .write i env path r _ =>
    ClientWrite r ∧ PlainPath path ∧
      (r.entry.key = k → r.call.client ∧ (r.cmd.copy = .set ∧ ¬ 0 < r.entry.expire ∨ r.cmd.copy = .delete) ∧
        ∀ c, (atMaster (g.store i) env path r).2 = some c → (encodeWrite c).isSome)
  | .arrive f env | .again f env =>
    env.putOk = true ∧ env.outOk = true ∧ ∀ x, g.flying[f]? = some x → x.copy.entry.key = k →
      ∀ (j : Nat) y, j < f → g.flying[j]? = some y → y.dest = x.dest → y.copy.entry.key ≠ k
  | .put _ env => env.putOk = true ∧ env.outOk = true
  | _ => True

def InOrder (rep : Bool) (k : Bytes) : Group → List GEv → Prop
  | _, [] => True
  | g, ev :: evs => ev.inOrder k g ∧ (∀ i, Remembered (g.store i) k → Remembered ((gStep rep g ev).store i) k) ∧
    InOrder rep k (gStep rep g ev) evs

end Flare
