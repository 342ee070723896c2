import Verif.Model.Binary

/-! What the binary protocol is meant to do. -/
namespace Flare

/-- A binary request in a flat stream: header, body, and what follows.  `none` where the stream ends too
early or does not begin with the magic byte of a request. -/
def flatBinRequest (s : Bytes) : Option (Bytes × Bytes × Bytes) :=
  if s.head? ≠ some 0x80 ∨ s.length < 24 then none
  else
    let total := beNat ((s.drop 8).take 4)
    let n := if total < 2147483648 then total else 0
    if s.length < 24 + n then none
    else some (s.take 24, (s.drop 24).take n, s.drop (24 + n))

/-- Requests one after the other, until one cannot be read. -/
def Conn.binRequests : Nat → Conn → List (Bytes × Bytes)
  | 0, _ => []
  | n + 1, c =>
    match c.binRequest with
    | .error _ => []
    | .ok (h, d, c) => (h, d) :: Conn.binRequests n c

/-- The same in a flat stream. -/
def flatBinRequests : Nat → Bytes → List (Bytes × Bytes)
  | 0, _ => []
  | n + 1, s =>
    match flatBinRequest s with
    | none => []
    | some (h, d, s) => (h, d) :: flatBinRequests n s

/-- The extras an operation insists on (`none`: it does not look at the body). -/
def BinOp.extras : BinOp → Option Nat
  | .get => some 0
  | .set => some 8
  | .append => some 0
  | .delete => some 0
  | .incr => some 20
  | .touch => some 4
  | .stats => none
  | .other => none

/-- A request as the protocol describes it: extras, key, value, and the fields of the header. -/
structure BinMsg where
  opcode : UInt8
  extras : Bytes
  key : Bytes
  value : Bytes
  vbucket : UInt16 := 0
  tag : UInt32 := 0
  cas : UInt64 := 0

/-- The lengths fit into the header. -/
def BinMsg.Fits (m : BinMsg) : Prop :=
  m.extras.length < 256 ∧ m.key.length < 65536 ∧
    m.extras.length + m.key.length + m.value.length < 2147483648

/-- The bytes of a message, field by field as in the protocol description. -/
def BinMsg.bytes (magic : UInt8) (m : BinMsg) : Bytes :=
  [magic, m.opcode] ++ beBytes 2 m.key.length ++ beBytes 1 m.extras.length ++ [0] ++
    beBytes 2 m.vbucket.toNat ++ beBytes 4 (m.extras.length + m.key.length + m.value.length) ++
    beBytes 4 m.tag.toNat ++ beBytes 8 m.cas.toNat ++ (m.extras ++ m.key ++ m.value)

/-- The bytes of a request. -/
def BinMsg.encode (m : BinMsg) : Bytes := m.bytes 0x80

end Flare
