import Verif.Model.Bytes

/-! How a log is read: line by line, and the part of a line before a mark. -/
namespace Flare

/-- The finished lines of a log; `acc` is what has been read of the line, the last byte first. -/
def logLines : Bytes → Bytes → List Bytes
  | _, [] => []
  | acc, c :: s => if c = 10 then acc.reverse :: logLines [] s else logLines (c :: acc) s

end Flare
