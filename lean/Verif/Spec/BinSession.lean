import Verif.Model.BinSession
import Verif.Spec.Binary
import Verif.Props.Get

/-! What a client of the binary protocol reads, and what it should read. -/
namespace Flare

deriving instance DecidableEq, Repr for BinMsg

/-- A message from a stream, field by field as in the protocol description; `none` where the stream ends too
early, does not begin with the magic byte of an answer, or gives lengths that do not fit together. -/
def readBin (s : Bytes) : Option (BinMsg × Bytes) :=
  if s.head? ≠ some 0x81 ∨ s.length < 24 then none
  else
    let klen := beNat ((s.drop 2).take 2)
    let xlen := beNat ((s.drop 4).take 1)
    let total := beNat ((s.drop 8).take 4)
    if total < xlen + klen ∨ s.length < 24 + total then none
    else
      let body := (s.drop 24).take total
      some ({ opcode := (s.drop 1).headD 0
              extras := body.take xlen
              key := (body.drop xlen).take klen
              value := body.drop (xlen + klen)
              vbucket := UInt16.ofNat (beNat ((s.drop 6).take 2))
              tag := UInt32.ofNat (beNat ((s.drop 12).take 4))
              cas := UInt64.ofNat (beNat ((s.drop 16).take 8)) }, s.drop (24 + total))

/-- So many messages, one after the other. -/
def readBins : Nat → Bytes → Option (List BinMsg × Bytes)
  | 0, s => some ([], s)
  | n + 1, s =>
    match readBin s with
    | none => none
    | some (m, s) => (readBins n s).map fun x => (m :: x.1, x.2)

/-- An answer without a value: status and text. -/
def BinMsg.plain (op : UInt8) (status : UInt16) (text : Bytes) : BinMsg :=
  { opcode := op, extras := [], key := [], value := text, vbucket := status }

/-- The answer with the result of a write.  A message is sent only with status 0 and with an error. -/
def OpResult.bin (op : UInt8) (msg : Bytes) : OpResult → BinMsg
  | .notStored => .plain op 5 (ascii "Item not stored")
  | .exists_ => .plain op 2 (ascii "Key exists")
  | .notFound => .plain op 1 (ascii "Not found")
  | .error | .clientError | .serverError =>
    .plain op 0x84 (if msg = [] then ascii "Internal error" else msg)
  | _ => .plain op 0 msg

/-- The answer with a value: the flags as extras, the key only if asked for. -/
def Entry.bin (op : UInt8) (e : Entry) : BinMsg :=
  { opcode := op, extras := beBytes 4 e.flag.toNat
    key := if op = 0x0c ∨ op = 0x0d then e.key else [], value := e.data }

/-- What the client should read about a write. -/
def Done.bin (op : UInt8) (cmd : WriteCmd) : Done → BinMsg
  | .noQueue => .plain op 0x84 (ascii "proxy failure")
  | .noPartition => .plain op 0x84 (ascii "no partition available")
  | .sent false _ _ _ => .plain op 0x84 (ascii "proxy error")
  | .sent true r msg e =>
    match cmd, r, e with
    | .gat, .touched, some e => e.bin op
    | _, _, _ => r.bin op msg
  | .own o =>
    match o.rc, o.r with
    | .ok, some r =>
      if cmd.kind = .count ∧ r = .stored then .plain op 0 (beBytes 8 (decValue (o.e.data.take o.e.size.toNat)))
      else if cmd = .gat ∧ r = .touched then o.e.bin op
      else r.toOp.bin op []
    | _, _ => .plain op 0x84 (ascii "i/o error")

/-- What the client should read: always an answer, under the operation code of the request. -/
def BReq.reply (op : UInt8) : BReq → Did → BinMsg
  | .write w, .wrote d => d.bin op w.req.cmd
  | .get k, .got [(_, a)] =>
    match a.found with
    | some e => e.bin op
    | none => { opcode := op, extras := [], key := if op = 0x0c ∨ op = 0x0d then k else []
                value := ascii "Not found", vbucket := 1 }
  | .noop, .status (some m) => .plain op 0x84 (if m = [] then ascii "Internal error" else m)
  | .version, _ => .plain op 0 (ascii "flare-1.3.4")
  | .flush, .flushed false => .plain op 0x84 (ascii "unknown error")
  | .unknown, _ => .plain 0x0a 0x84 (ascii "Internal error")
  | _, _ => .plain op 0 []

/-- A request refused for its extras or its missing body. -/
def BinMsg.refused (m : BinMsg) : BinMsg := .plain m.opcode 0x84 (ascii "Internal error")

/-- A value that can be sent. -/
def BinValue (e : Entry) : Prop :=
  e.size.toNat = e.data.length ∧ e.key.length < 65536 ∧ 4 + e.key.length + e.data.length < 2147483648

/-- A message that can be sent: short and without zero bytes. -/
def BinText (m : Bytes) : Prop := m.length < 2147483648 ∧ 0 ∉ m

/-- Outcomes of writes that make sense, and no success of `incr` and `decr` at another node. -/
def Done.BSound (cmd : WriteCmd) : Done → Prop
  | .noQueue | .noPartition => True
  | .sent ok r msg e => ok = true → ¬(cmd.kind = .count ∧ r = .stored) ∧ BinText msg ∧
      (cmd = .gat → r = .touched → ∀ x, e = some x → BinValue x)
  | .own o => o.rc ≠ .ub ∧ (o.rc = .ok → ∃ r, o.r = some r ∧
      (cmd.kind = .count → r = .stored → isUnsignedString (o.e.data.take o.e.size.toNat) = true ∧
        decValue (o.e.data.take o.e.size.toNat) < 2 ^ 64) ∧
      (cmd = .gat → r = .touched → BinValue o.e))

/-- Outcomes that make sense; the entry of a queue and of a read has the key of the request. -/
def Did.BSound : BReq → Did → Prop
  | .write w, .wrote d => d.BSound w.req.cmd
  | .get k, .got [(_, a)] => (slotAt k a).e.key = k ∧ k.length < 65536 ∧ ∀ e, a.found = some e → BinValue e
  | .noop, .status (some m) => BinText m
  | _, _ => True

/-- The request the node should have in hand; `none` if it is refused. -/
def BinMsg.taken (now : Int64) (m : BinMsg) : Option BReq :=
  match cutRequest now (m.bytes 0x80 |>.take 24) (m.extras ++ m.key ++ m.value) with
  | .ok b => some (binReqOf m.opcode.toNat b)
  | .error _ => none

/-- The requests carried out one after the other; for a refused one nothing is done. -/
def bPerformAll {σ : Type} (B : BBack σ) : σ → List (Option BReq) → σ × List (Option (BReq × Did))
  | st, [] => (st, [])
  | st, none :: rs =>
    let (st, ds) := bPerformAll B st rs
    (st, none :: ds)
  | st, some r :: rs =>
    let (st, d) := bPerform B st r
    let (st, ds) := bPerformAll B st rs
    (st, some (r, d) :: ds)

/-- The answer to a message. -/
def BinMsg.reply (m : BinMsg) : Option (BReq × Did) → BinMsg
  | none => m.refused
  | some (r, d) => r.reply m.opcode d

end Flare
