import Verif.Model.Senders

/-! What is asked of the senders (C101). -/
namespace Flare

/-- No sender stops. -/
def SendersAct.steady : SendersAct → Prop
  | .stop _ | .gone _ => False
  | _ => True

/-- The thread that serves a client whose step it is, if any, is one of the first `n`. -/
def SendersAct.below (n : Nat) : SendersAct → Prop
  | .call c _ | .make c | .seen c | .again c | .enq c => c < n
  | _ => True

/-- In the midst of starting senders. -/
def CallAt.busy : CallAt → Bool
  | .short .. | .starting .. => true
  | _ => false

/-- No call begins before the others have come to their end. -/
def SendersSt.serial (s : SendersSt) : SendersAct → Prop
  | .call _ _ => ∀ c, s.calls c = .idle
  | _ => True

/-- The same for a history. -/
def SendersSt.Serial (conc : Int) : SendersSt → List SendersAct → Prop
  | _, [] => True
  | s, a :: as => s.serial a ∧ ∀ t, s.step conc a = some t → t.Serial conc as

end Flare
