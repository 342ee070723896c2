import Verif.Model.Failover
import Verif.Spec.Rebuild

/-! What is expected of a partition whose roles change. -/
namespace Flare

/-- A node that has never heard of key `k`, or that holds `x`, which does not expire. -/
def KnownAt (k : Bytes) (x : Option Item) (s : Store) : Prop :=
  s.Ok ∧ AbsoluteStore s ∧ 0 < s.cacheSize ∧
    match x with
    | none => ¬ Remembered s k
    | some x => x.version ≠ 0 ∧ ∀ t, lookup s t k = some x

/-- Requests are clients' requests; key `k` is only given values that do not expire, versions are named in
cas only, and what is sent fits into an `int`; the nodes' databases take the copies. -/
def GEv.fine (k : Bytes) (g : Group) : GEv → Prop
  | .write i env path r _ =>
    ClientWrite r ∧ PlainPath path ∧
      (r.entry.key = k → r.call.client ∧ r.cmd.copy = .set ∧ ¬ 0 < r.entry.expire ∧
        ∀ c, (atMaster (g.store i) env path r).2 = some c → (encodeWrite c).isSome)
  | .arrive _ env => env.putOk = true
  | .again _ env => env.putOk = true
  | .put _ env => env.putOk = true
  | _ => True

def Fine (rep : Bool) (k : Bytes) : Group → List GEv → Prop
  | _, [] => True
  | g, ev :: evs => ev.fine k g ∧ Fine rep k (gStep rep g ev) evs

/-- The roles stay as they are, and no copy of a write of `k` is refused or given up. -/
def GEv.steadyFor (k : Bytes) (g : Group) : GEv → Prop
  | .write _ _ _ r refused => r.entry.key = k → refused = []
  | .lose f => ∀ x, g.flying[f]? = some x → x.copy.entry.key ≠ k
  | .role _ _ => False
  | _ => True

def SteadyFor (rep : Bool) (k : Bytes) : Group → List GEv → Prop
  | _, [] => True
  | g, ev :: evs => ev.steadyFor k g ∧ SteadyFor rep k (gStep rep g ev) evs

end Flare
