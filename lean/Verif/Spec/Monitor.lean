import Verif.Model.Monitor

/-! Notions used to state when the monitor asks for a node to be taken down or brought up. -/
namespace Flare

/-- A round that ends in a failure: a failed check, a node map that could not be delivered, an
entry of unknown kind. -/
def MonGot.fails : MonGot → Bool
  | .check ok => !ok
  | .sync _ ok => !ok
  | .unknown => true
  | _ => false

/-- Failures since the last successful check; the newest round comes last. -/
def failuresSince (n : Nat) : List (MonView × MonGot) → Nat
  | [] => n
  | (_, .check true) :: l => failuresSince 0 l
  | (_, g) :: l => failuresSince (if g.fails then n + 1 else n) l

/-- The threshold is not changed. -/
def MonGot.steady : MonGot → Bool
  | .option _ => false
  | .nothing => false
  | _ => true

end Flare
