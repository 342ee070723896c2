import Verif.Spec.Failover

/-! What is expected of a partition whose master is lost again and again, and to which nodes are added. -/
namespace Flare

/-- A time in which the roles stay as they are: `gap` is what happens between the loss of the master before (or the first
message about a new slave) and the moment at which everybody knows the roles, `evs` what happens then.  `joined` are the slaves
that are new and are yet to get the records there are. -/
structure Era where
  gap : List GEv := []
  master : Nat
  slaves : List Nat
  joined : List Nat := []
  evs : List GEv
  deriving Repr

def Era.events (e : Era) : List GEv := e.gap ++ e.evs

/-- Nobody writes key `k` at a node that takes itself for the master, no dump comes to it, and no client with an open write of
it is answered; anything else may happen, and copies may be lost. -/
def GEv.idleFor (k : Bytes) (g : Group) : GEv → Prop
  | .write _ _ _ r _ => r.entry.key ≠ k
  | .answer a => ∀ p, g.open_[a]? = some p → p.2.1.entry.key ≠ k
  | .dump _ _ _ k' => k' ≠ k
  | .arrive _ _ | .again _ _ | .lose _ | .read _ _ _ | .role _ _ | .put _ _ | .drop _ => True

def IdleFor (rep : Bool) (k : Bytes) : Group → List GEv → Prop
  | _, [] => True
  | g, ev :: evs => ev.idleFor k g ∧ IdleFor rep k (gStep rep g ev) evs

/-- As `GEv.steadyFor`; a write made at a master that is lost is not answered any more, and dumps for the nodes of the era
come from its master. -/
def GEv.steadyIn (k : Bytes) (since : Nat) (e : Era) (g : Group) : GEv → Prop
  | .write _ _ _ r refused => r.entry.key = k → refused = []
  | .lose f => ∀ x, g.flying[f]? = some x → x.dest ∈ e.slaves → x.copy.entry.key ≠ k
  | .role _ _ => False
  | .answer a => ∀ p, g.open_[a]? = some p → p.2.1.entry.key = k → since ≤ p.1
  | .dump i j _ k' => k' = k → i = e.master ∨ j ≠ e.master ∧ j ∉ e.slaves
  | .arrive _ _ | .again _ _ | .read _ _ _ | .put _ _ | .drop _ => True

def SteadyIn (rep : Bool) (k : Bytes) (since : Nat) (e : Era) : Group → List GEv → Prop
  | _, [] => True
  | g, ev :: evs => ev.steadyIn k since e g ∧ SteadyIn rep k since e (gStep rep g ev) evs

/-- `x` is older than what `m` has for `k`, or it is the same. -/
def NotAhead (k : Bytes) (m : Store) (x : Item) : Prop :=
  x.version < recordVersion m k ∨ lookup m Int64.minValue k = some x

/-- The master and its slaves had everything before (`C`), unless they have just joined; none of them has, or is still to get, a
newer value of `k` than the master; what a node that has just joined still holds, or is still to get, of `k` is older than what
the master has, or the same. -/
structure Succeeds (k : Bytes) (C : Nat → Prop) (g : Group) (e : Era) : Prop where
  from_master : C e.master ∧ e.master ∉ e.joined
  from_slaves : ∀ j ∈ e.slaves, j ∉ e.joined → C j
  knows : g.slaves e.master = some e.slaves
  others : ∀ i, i ≠ e.master → g.slaves i = none
  newest : ∀ j ∈ e.slaves, j ∉ e.joined → recordVersion (g.store j) k ≤ recordVersion (g.store e.master) k
  flying : ∀ f ∈ g.flying, f.copy.entry.key = k → f.dest = e.master ∨ f.dest ∈ e.slaves ∧ f.dest ∉ e.joined →
    f.copy.entry.version ≤ recordVersion (g.store e.master) k
  dumps : ∀ d ∈ g.dumps, d.2.key = k → d.1 = e.master ∨ d.1 ∈ e.slaves ∧ d.1 ∉ e.joined →
    d.2.version ≤ recordVersion (g.store e.master) k
  old : ∀ j ∈ e.joined, ∀ x, lookup (g.store j) Int64.minValue k = some x → NotAhead k (g.store e.master) x
  old_flying : ∀ f ∈ g.flying, f.copy.entry.key = k → f.dest ∈ e.joined → NotAhead k (g.store e.master) f.copy.entry.item
  old_dumps : ∀ d ∈ g.dumps, d.2.key = k → d.1 ∈ e.joined → NotAhead k (g.store e.master) d.2.item

/-- The dump of the master for node `j` has come to `k` after the master had begun to send copies to `j`, and what the master
held at that moment has arrived.  `g` is the state in which the era begins. -/
def Rebuilt (rep : Bool) (k : Bytes) (e : Era) (g : Group) (j : Nat) : Prop :=
  ∃ a env b, e.evs = a ++ .dump e.master j env k :: b ∧
    ∀ x, lookup ((gRun rep g a).store e.master) env.now k = some x →
      ∃ b1 d env' b2 r, b = b1 ++ .put d env' :: b2 ∧
        (gRun rep g (a ++ .dump e.master j env k :: b1)).dumps[d]? = some (j, r) ∧ r.key = k ∧ r.item = x

/-- The nodes that have everything when the era ends: the master, the slaves that had it, and those that got it. -/
def Whole (rep : Bool) (k : Bytes) (e : Era) (g : Group) (j : Nat) : Prop :=
  j = e.master ∨ j ∈ e.slaves ∧ (j ∉ e.joined ∨ Rebuilt rep k e g j)

/-- One era after the other; the nodes in `C` have everything at the beginning. -/
def Reigned (rep : Bool) (k : Bytes) : (Nat → Prop) → Group → List Era → Prop
  | _, _, [] => True
  | C, g, e :: es =>
    let g1 := gRun rep g e.gap
    IdleFor rep k g e.gap ∧ Succeeds k C g1 e ∧ SteadyIn rep k g1.next e g1 e.evs ∧
      Reigned rep k (Whole rep k e g1) (gRun rep g e.events) es

end Flare
