import Verif.Spec.Tombs
import Verif.Spec.Reigns

/-! What is expected of a partition whose clients write and delete keys while its master is lost again and again, and to
which nodes are added. -/
namespace Flare

instance (s : Store) (k : Bytes) : Decidable (Remembered s k) := by unfold Remembered; infer_instance

/-- What a node knows about key `k`. -/
def traceOf (s : Store) (k : Bytes) : Trace :=
  match lookup s Int64.minValue k with
  | some x => .value x
  | none => if Remembered s k then .deleted (lastVersion s k) else .never

/-- What the copy of a write stands for. -/
def WriteReq.trace (c : WriteReq) : Trace :=
  if c.cmd = .delete then .deleted c.entry.version else .value c.entry.item

/-- The order in which values and deletions of a key follow each other: a deletion has the version of the value. -/
def Trace.rank : Trace → Nat
  | .never => 0
  | .value x => 2 * x.version.toNat
  | .deleted v => 2 * v.toNat + 1

/-- `x` is older than what `m` knows about `k`, or it is the same. -/
def Trace.Behind (x : Trace) (k : Bytes) (m : Store) : Prop := x.rank < (traceOf m k).rank ∨ x = traceOf m k

/-- As `Succeeds`: none of the nodes that had everything has, or is still to get, anything later about `k` than the master, be
it a value or a deletion; what a node that has just joined still knows, or is still to get, is older than what the master
knows, or the same. -/
structure TakesOver (k : Bytes) (C : Nat → Prop) (g : Group) (e : Era) : Prop where
  from_master : C e.master ∧ e.master ∉ e.joined
  from_slaves : ∀ j ∈ e.slaves, j ∉ e.joined → C j
  knows : g.slaves e.master = some e.slaves
  others : ∀ i, i ≠ e.master → g.slaves i = none
  newest : ∀ j ∈ e.slaves, j ∉ e.joined → (traceOf (g.store j) k).rank ≤ (traceOf (g.store e.master) k).rank
  flying : ∀ f ∈ g.flying, f.copy.entry.key = k → f.dest = e.master ∨ f.dest ∈ e.slaves ∧ f.dest ∉ e.joined →
    f.copy.trace.rank ≤ (traceOf (g.store e.master) k).rank
  dumps : ∀ d ∈ g.dumps, d.2.key = k → d.1 = e.master ∨ d.1 ∈ e.slaves ∧ d.1 ∉ e.joined →
    (Trace.value d.2.item).rank ≤ (traceOf (g.store e.master) k).rank
  old : ∀ j ∈ e.joined, traceOf (g.store j) k ≠ .never → (traceOf (g.store j) k).Behind k (g.store e.master)
  old_flying : ∀ f ∈ g.flying, f.copy.entry.key = k → f.dest ∈ e.joined → f.copy.trace.Behind k (g.store e.master)
  old_dumps : ∀ d ∈ g.dumps, d.2.key = k → d.1 ∈ e.joined → (Trace.value d.2.item).Behind k (g.store e.master)

/-- The dump of the master for node `j` has come to `k` after the master had begun to send copies to `j`, the master had a value
then, and it has arrived.  `g` is the state in which the era begins. -/
def Refilled (rep : Bool) (k : Bytes) (e : Era) (g : Group) (j : Nat) : Prop :=
  ∃ a env b1 d env' b2 r x, e.evs = a ++ .dump e.master j env k :: (b1 ++ .put d env' :: b2) ∧
    lookup ((gRun rep g a).store e.master) env.now k = some x ∧
    (gRun rep g (a ++ .dump e.master j env k :: b1)).dumps[d]? = some (j, r) ∧ r.key = k ∧ r.item = x

/-- Node `j` has got a value or a deletion that is not older than what the master knew when the era began. -/
def CaughtUp (rep : Bool) (k : Bytes) (e : Era) (g : Group) (j : Nat) : Prop :=
  (traceOf (g.store e.master) k).rank ≤ (traceOf ((gRun rep g e.evs).store j) k).rank

/-- The nodes that have everything when the era ends.  A dump tells nothing of deletions: a node that has joined after a
deletion and has heard of nothing since is none of them. -/
def Complete (rep : Bool) (k : Bytes) (e : Era) (g : Group) (j : Nat) : Prop :=
  j = e.master ∨ j ∈ e.slaves ∧ (j ∉ e.joined ∨ Refilled rep k e g j ∨ CaughtUp rep k e g j)

/-- One era after the other; the nodes in `C` have everything at the beginning. -/
def Ruled (rep : Bool) (k : Bytes) : (Nat → Prop) → Group → List Era → Prop
  | _, _, [] => True
  | C, g, e :: es =>
    let g1 := gRun rep g e.gap
    IdleFor rep k g e.gap ∧ TakesOver k C g1 e ∧ SteadyIn rep k g1.next e g1 e.evs ∧
      Ruled rep k (Complete rep k e g1) (gRun rep g e.events) es

end Flare
