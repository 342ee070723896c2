import Verif.Model.Halt

/-! What is expected of the stop of a node. -/
namespace Flare

/-- Nobody kills single threads, and the main thread waits for every thread as long as it takes. -/
def HaltEv.patient : HaltEv → Prop
  | .kill _ | .giveUp _ => False
  | _ => True

/-- The main thread waits as long as it takes. -/
def HaltEv.waits : HaltEv → Prop
  | .giveUp _ => False
  | _ => True

/-- What a sender has in its hands. -/
def Sender.hand (c : Sender) : List Nat :=
  match c.loc with
  | .holding w | .sending w => [w]
  | _ => []

/-- The number of steps the main thread still has to make. -/
def Halt.ahead (s : Halt) : Nat :=
  let n := s.clerks
  let m := s.senders
  match s.main with
  | .top | .before | .accept => 2 * n + 2 * m + 7
  | .closed => 2 * n + 2 * m + 6
  | .told => 2 * n + 2 * m + 5
  | .clerk k => 2 * (n - k) + 2 * m + 4
  | .clerkWait k => 2 * (n - (k + 1)) + 2 * m + 5
  | .sender k => 2 * (m - k) + 3
  | .senderWait k => 2 * (m - (k + 1)) + 4
  | .cleared => 2
  | .shut => 1
  | .gone => 0

/-- The stop has begun. -/
def MainAt.stopping : MainAt → Bool
  | .top | .before | .accept => false
  | _ => true

end Flare
