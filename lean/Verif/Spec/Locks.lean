import Verif.Model.Locks

/-! What it means for lock operations to be well ordered. -/
namespace Flare

/-- The locks held after the operations, if every lock that is taken comes after all locks held at
that time, only held locks are released, and everything is used under its lock. -/
def lockAfter : List (Nat × Bool) → List LockAct → Option (List (Nat × Bool))
  | held, [] => some held
  | held, .acq l w :: r => if ∀ h ∈ held, h.1 < l then lockAfter ((l, w) :: held) r else none
  | held, .rel l :: r =>
    if ∃ h ∈ held, h.1 = l then lockAfter (held.eraseP (fun h => h.1 == l)) r else none
  | held, .use l w :: r =>
    if (l, true) ∈ held ∨ (w = false ∧ (l, false) ∈ held) then lockAfter held r else none

/-- Locks are taken in order, everything is used under its lock, and nothing is left locked. -/
def WellLocked (acts : List LockAct) : Prop := lockAfter [] acts = some []

instance (acts : List LockAct) : Decidable (WellLocked acts) := by unfold WellLocked; infer_instance

/-- The slots of the command exist. -/
def StoCmd.InRange (n : Nat) : StoCmd → Prop
  | .write i _ | .incrExpired i _ _ | .get i | .getExpired i _ => i < n
  | _ => True

/-- All threads have finished. -/
def AllDone (s : List LThread) : Prop := ∀ t ∈ s, t.rest = []

/-- The number of operations still to do. -/
def lockWork (s : List LThread) : Nat := (s.map fun t => t.rest.length).sum

end Flare
