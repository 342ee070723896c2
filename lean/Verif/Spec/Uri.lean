import Verif.Model.Uri

namespace Flare

/-- The file of the state in a directory, as the manual has it. -/
def stateIn (dir : Bytes) : Bytes := dir ++ ascii "/flare.xml"

/-- A list of ZooKeeper servers, as an operator writes it. -/
def serverList : List (Bytes × Nat) → Bytes
  | [] => []
  | [h] => h.1 ++ ascii ":" ++ decimal h.2
  | h :: l => h.1 ++ ascii ":" ++ decimal h.2 ++ ascii "," ++ serverList l

/-- A name of a host: nothing that has a meaning in a URI. -/
def PlainHost (h : Bytes) : Prop := ∀ c ∈ h, c ≠ 58 ∧ c ≠ 64 ∧ c ≠ 47 ∧ c ≠ 44

/-- The text of an authority: a user, a host and a port, of which the host may be empty and the others may be missing. -/
def authorityText (user : Option Bytes) (host : Bytes) (port : Option Bytes) : Bytes :=
  (match user with | none => [] | some u => u ++ ascii "@") ++ host ++
  (match port with | none => [] | some d => ascii ":" ++ d)

end Flare
