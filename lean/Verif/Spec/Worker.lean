import Verif.Model.Worker

/-! C75: what others may do to a thread of a pool, and when. -/
namespace Flare

/-- In time: a thread is shut down, and entries are put into its queue, only while the handler they are meant for is
busy; waits do not end by themselves. -/
def Work.timely (s : Work) : WorkAct → Prop
  | .mark _ | .poke => ∃ h, s.at_ = .busy h
  | .push i => ∃ q, s.enq[i]? = some q ∧ s.at_ = .busy q.goal
  | .spurious => False
  | _ => True

/-- A history in time. -/
def Work.Timely : Work → List WorkAct → Prop
  | _, [] => True
  | s, a :: as => s.timely a ∧ ∀ s', s.step a = some s' → s'.Timely as

/-- The steps of the thread itself. -/
def WorkAct.isGo : WorkAct → Bool
  | .go _ => true
  | _ => false

/-- The steps that shut it down. -/
def WorkAct.isMark : WorkAct → Bool
  | .mark _ => true
  | _ => false

end Flare
