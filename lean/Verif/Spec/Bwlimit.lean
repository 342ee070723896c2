import Verif.Model.Bwlimit

/-! What the bandwidth limiter is measured by. -/
namespace Flare

/-- The clock never goes back: every call comes after the one before. -/
def BwTimely (t : Int) : List BwCall → Prop
  | [] => True
  | c :: l => t ≤ c.now ∧ c.now ≤ c.wake ∧ BwTimely c.wake l

/-- All bytes written. -/
def bwBytes (l : List BwCall) : Nat := (l.map (·.bytes)).sum

/-- The number of sleeps. -/
def bwSleeps (ss : List BwSlept) : Nat := (ss.map fun s => if s.isSome then 1 else 0).sum

/-- Every sleep took at least as long as it should. -/
def BwFull (ss : List BwSlept) : Prop := ∀ s ∈ ss, ∀ x, s = some x → x.1 ≤ x.2

/-- The time slept on demand: what passed, but not more than what was asked for. -/
def bwSlept (ss : List BwSlept) : Int :=
  (ss.map fun s => match s with | none => 0 | some x => min x.1 x.2).sum

/-- When the last call that did something was over. -/
def Bw.last (b : Bw) (t : Int) : Int := b.prior.getD t

end Flare
