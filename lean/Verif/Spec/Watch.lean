import Verif.Model.Watch
import Verif.Props.Util

/-! Vocabulary for the watch over storage accesses: the accesses that are going on, by themselves. -/
namespace Flare

/-- The options in force and the accesses that are going on: which, since when (in nanoseconds), and the first
threshold that held when it began (in milliseconds). -/
structure Accesses where
  going : List (Nat × Int × UInt32) := []
  warn : UInt32
  ng : UInt32
  polling : Bool
  deriving DecidableEq, Repr

def Accesses.step (s : Accesses) : WEv → Accesses
  | .start a now => { s with going := (a, now.nanos, s.warn) :: s.going }
  | .finish a => { s with going := s.going.filter (·.1 ≠ a) }
  | .fault | .poll _ => s
  | .reload on interval warn ng => { s with warn := warn, ng := ng, polling := on && interval ≠ 0 }

def Accesses.run (s : Accesses) (l : List WEv) : Accesses := l.foldl Accesses.step s

def Accesses.init (on : Bool) (interval warn ng : UInt32) : Accesses :=
  { warn := warn, ng := ng, polling := on && interval ≠ 0 }

/-- An access that begins is a new one, and there are less than 2^64 at a time; the clock gives normalised times. -/
def Accesses.Allows (s : Accesses) : WEv → Prop
  | .start a now => (∀ x ∈ s.going, x.1 ≠ a) ∧ s.going.length + 1 < 2 ^ 64 ∧ now.Normal
  | .poll now => now.Normal
  | _ => True

/-- A run of the surroundings. -/
def Accesses.Fine (s : Accesses) : List WEv → Prop
  | [] => True
  | e :: l => s.Allows e ∧ (s.step e).Fine l

/-- Some access has been going on for longer than both thresholds. -/
def Accesses.Late (s : Accesses) (now : Timespec) : Prop :=
  ∃ x ∈ s.going, (x.2.2.toNat : Int) * 1000000 < now.nanos - x.2.1 ∧ (s.ng.toNat : Int) * 1000000 < now.nanos - x.2.1

/-- What makes a node report its storage as broken: an error, or a look while an access is late. -/
def Accesses.Breaks (s : Accesses) : WEv → Prop
  | .fault => True
  | .poll now => s.polling = true ∧ s.Late now
  | _ => False

end Flare
