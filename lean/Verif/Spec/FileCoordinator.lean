import Verif.Model.FileCoordinator

/-! Notions used to state what a restart finds. -/
namespace Flare

/-- The state a save was meant to store. -/
def SaveEv.state : SaveEv → Bytes
  | .save xml _ => xml
  | .crash chunks _ => chunks.flatten

/-- All bytes that were written reached the disk. -/
def SaveEv.diskOk : SaveEv → Prop
  | .save _ (.write _) => False
  | _ => True

/-- The file was not left away between unlink and rename. -/
def SaveEv.notBetween : SaveEv → Prop
  | .save _ f => f ≠ .rename
  | .crash chunks done => done ≠ chunks.length + 2

end Flare
