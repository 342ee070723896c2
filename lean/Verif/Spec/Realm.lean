import Verif.Model.Realm
import Verif.Spec.Routing
import Verif.Spec.TombReigns

/-! What is expected of a whole cluster. -/
namespace Flare

def Realm.ix (s : Realm) : Index := ixRun .init s.acts

/-- The last map the index server has sent has reached node `i`. -/
def Realm.Informed (s : Realm) (i : NodeKey) : Prop := ∃ m, (sent .init s.acts).getLast? = some m ∧ m ∈ s.got i

/-- A time without changes: what the index server does and who stops is left out. -/
def REv.ordinary : REv → Bool
  | .deliver _ _ | .data _ => true
  | .act _ | .crash _ => false

/-- Setting up: the index server gets commands, and nodes receive its maps. -/
def REv.preparatory : REv → Bool
  | .act _ | .deliver _ _ => true
  | .crash _ | .data _ => false

/-- Master `m` is in charge: copies of the key's writes are neither refused by a queue nor given up, and dumps come from `m`.
A node that has no map yet gets the current one. -/
def REv.undisturbed (C : RealmCfg) (m : NodeKey) (s : Realm) : REv → Prop
  | .deliver i n => s.got i = [] → n + 1 = (sent .init s.acts).length
  | .data (.write _ _ _ r refused) => r.entry.key = C.key → refused = []
  | .data (.lose f) => ∀ x, s.g.flying[f]? = some x → x.copy.entry.key ≠ C.key
  | .data (.dump i _ _ k) => k = C.key → i = m
  | _ => True

def Undisturbed (C : RealmCfg) (m : NodeKey) : Realm → List REv → Prop
  | _, [] => True
  | s, ev :: evs => ev.ordinary = true ∧ ev.undisturbed C m s ∧ Undisturbed C m (rStep C s ev) evs

/-- Nobody executes a write of the key, and no dump comes to it.  A node that has no map yet gets the current one. -/
def REv.hushed (C : RealmCfg) (s : Realm) : REv → Prop
  | .deliver i n => s.got i = [] → n + 1 = (sent .init s.acts).length
  | .data (.write i _ _ r _) => r.entry.key = C.key → s.g.slaves i = none
  | .data (.dump _ _ _ k) => k ≠ C.key
  | _ => True

def Hushed (C : RealmCfg) : Realm → List REv → Prop
  | _, [] => True
  | s, ev :: evs => ev.ordinary = true ∧ ev.hushed C s ∧ Hushed C (rStep C s ev) evs

/-- A change of masters: the master stops, after some time (`pre`) the index server takes it down and names another one, which
gets the message after some time (`post`) and then is in charge (`evs`). -/
structure Term where
  master : NodeKey
  pre : List REv := []
  post : List REv
  evs : List REv

/-- What happens until the new master knows; `m` is the old one. -/
def Term.fall (m : NodeKey) (t : Term) : List REv := .crash m :: (t.pre ++ .act (.cmd {} (.down m)) :: t.post)

/-- Everything that happens; `m` is the first master. -/
def termEvents : NodeKey → List Term → List REv
  | _, [] => []
  | m, t :: ts => t.fall m ++ t.evs ++ termEvents t.master ts

/-- Node `f` can take over: it has got the map that makes it the master of partition `p`; nothing that one of its slaves has, and
nothing that is still on its way to it or to them, is later than what it has. -/
structure Inherits (C : RealmCfg) (p : Int) (s : Realm) (f : NodeKey) : Prop where
  informed : s.Informed f
  leads : Leads s.ix.nodes p f
  newest : ∀ j, Follows s.ix.nodes p j → (traceOf (s.g.store j) C.key).rank ≤ (traceOf (s.g.store f) C.key).rank
  flying : ∀ x ∈ s.g.flying, x.copy.entry.key = C.key → x.dest = f ∨ Follows s.ix.nodes p x.dest →
    x.copy.trace.rank ≤ (traceOf (s.g.store f) C.key).rank
  dumps : ∀ d ∈ s.g.dumps, d.2.key = C.key → d.1 = f ∨ Follows s.ix.nodes p d.1 →
    (Trace.value d.2.item).rank ≤ (traceOf (s.g.store f) C.key).rank

/-- One change of masters after the other; `m` is the master at the beginning. -/
def Lawful (C : RealmCfg) (p : Int) : NodeKey → Realm → List Term → Prop
  | _, _, [] => True
  | m, s, t :: ts =>
    let s1 := rRun C s [.crash m]
    let s2 := rRun C s1 (t.pre ++ [.act (.cmd {} (.down m))])
    let s3 := rRun C s (t.fall m)
    Hushed C s1 t.pre ∧ Hushed C s2 t.post ∧ Inherits C p s3 t.master ∧ Undisturbed C t.master s3 t.evs ∧
      Lawful C p t.master (rRun C s3 t.evs) ts

/-- The last master. -/
def lastMaster : NodeKey → List Term → NodeKey
  | m, [] => m
  | _, t :: ts => lastMaster t.master ts

/-- The cluster is set up: an orderly history of the index server, whose last save was successful; `m` is the active master of
the key's partition `p`, no partition is being added, and every node has the last map or none. -/
structure SetUp (C : RealmCfg) (N : Nat) (p : Nat) (s : Realm) (m : NodeKey) : Prop where
  orderly : Orderly true .init s.acts
  fresh : freshAfter true s.acts = true
  good : Good N (mfind s.ix.nodes)
  routable : Routable C.kr N (C.hash C.key)
  partition : resolve C.kr (C.hash C.key) N = some p ∧ p < N
  leads : Leads s.ix.nodes p m
  still : ∀ k, ¬ Prepares s.ix.nodes k
  master : s.Informed m
  others : ∀ i, s.got i = [] ∨ s.Informed i

end Flare
