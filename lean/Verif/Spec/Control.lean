import Verif.Model.Control
import Verif.Spec.Text

/-! Notions used to state what becomes of the messages between index server and nodes. -/
namespace Flare

/-- A host name: not empty, no blank, newline or NUL, and short enough for the buffers. -/
def NodeLine.Ok (n : NodeLine) : Prop := PlainKey n.name 8000

/-- A message that can be put behind a result: no NUL, no newline, no blank at the front. -/
def PlainMessage (m : Bytes) : Prop := (∀ c ∈ m, c ≠ 0 ∧ c ≠ chNl) ∧ m.head? ≠ some chSpace

/-- The two directions of a cast: every value has a name that is cast to it, and nothing else is
accepted. -/
def Casts {α : Type} (cast : Bytes → Option α) (name : α → Bytes) : Prop :=
  (∀ v, cast (name v) = some v) ∧ ∀ s v, cast s = some v → s = name v

end Flare
