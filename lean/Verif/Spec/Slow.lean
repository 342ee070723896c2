import Verif.Model.Slow
import Verif.Spec.Session
import Verif.Spec.BinSession

/-! Where a break falls in a session. -/
namespace Flare

variable {σ : Type}

/-- What `s` holds ends within the value of a request (and not before or within a line). -/
def endsInValue (B : Back σ) (now : Int64) (first q : Bytes) : Nat → σ → Bytes → Bool
  | 0, _, _ => false
  | n + 1, st, s =>
    match takeReq now first q s with
    | .cut => true
    | .bad rest => endsInValue B now first q n st rest
    | .req r rest =>
      match answer r (perform B st r).2 with
      | none => false
      | some _ => if r = .quit then false else endsInValue B now first q n (perform B st r).1 rest
    | _ => false

/-- The bytes to come, and the breaks. -/
def slowSize (s : Bytes) : List Bytes → Nat
  | [] => s.length
  | t :: more => s.length + 1 + slowSize t more

end Flare
