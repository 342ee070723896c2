import Verif.Model.Wire
import Verif.Spec.Connection

/-! What writing to a connection is meant to be. -/
namespace Flare

/-- The bytes that a call stands for: a line ends at its first NUL and gets a delimiter. -/
def WireCall.payload : WireCall → Bytes
  | .write p _ => p
  | .line p => cstr p ++ crlf
  | .close => []

/-- The bytes that a sequence of calls stands for. -/
def payloads (cs : List WireCall) : Bytes := (cs.map WireCall.payload).flatten

/-- The call returned, and not with an error. -/
def WireEnd.good : WireEnd → Bool
  | .ret n => decide (0 ≤ n)
  | _ => false

/-- The call sends what has been kept back. -/
def WireCall.sends : WireCall → Bool
  | .write _ b => !b
  | .line _ => true
  | .close => false

/-- What is sent to a peer: a line, or a block of bytes whose length the peer knows. -/
inductive Parcel where
  | line (l : Bytes)
  | block (b : Bytes)
  deriving DecidableEq, Repr

/-- A line holds neither a NUL nor a new line. -/
def Parcel.Ok : Parcel → Prop
  | .line l => ∀ c ∈ l, c ≠ 0 ∧ c ≠ chNl
  | .block _ => True

/-- The call that sends it; blocks can be kept back. -/
def Parcel.call (keep : Bool) : Parcel → WireCall
  | .line l => .line l
  | .block b => .write b keep

/-- The call that reads it. -/
def Parcel.read : Parcel → ReadCall
  | .line _ => .line
  | .block b => .size b.length

/-- What the peer is to get. -/
def Parcel.got : Parcel → Bytes
  | .line l => l ++ [chNl]
  | .block b => b

end Flare
