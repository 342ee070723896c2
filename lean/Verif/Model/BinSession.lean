import Verif.Model.Session
import Verif.Model.Forward

/-!
# A session of a client of the binary protocol with a node

The same loop as in Model/Session (/repo/src/flared/handler_request.cc:56-98) over requests of the binary
protocol, with the answers of the binary protocol.  Reading and cutting of requests is in Model/Binary.

Left out: requests of the text protocol in between and `stat` (outcome `other`), time-outs, failures of
writes to the connection, the thread's shutdown flag, statistics.  No operation is quiet: the constructor
sets `_quiet` to false for every operation code (/repo/src/lib/op.cc:41-47), and nobody calls `is_quiet`.
-/

namespace Flare

/-- A binary request that has been read. -/
inductive BReq where
  | write (op : HeldOp)
  | get (key : Bytes)
  | noop
  | version
  | flush
  | quit
  | unknown
  deriving DecidableEq, Repr

/-- The writes among the operation codes, /repo/src/flared/op_parser_binary_node.cc:88-161. -/
def binWriteCmd : Nat → Option WriteCmd
  | 0x01 | 0x11 => some .set
  | 0x02 | 0x12 => some .add
  | 0x03 | 0x13 => some .replace
  | 0x04 | 0x14 => some .delete
  | 0x05 | 0x15 => some .incr
  | 0x06 | 0x16 => some .decr
  | 0x0e | 0x19 => some .append
  | 0x0f | 0x1a => some .prepend
  | 0x1c => some .touch
  | 0x1d | 0x1e => some .gat
  | _ => none

/-- `op_parser_binary_node::_determine_op`, /repo/src/flared/op_parser_binary_node.cc:74-199; `b` is what
`_parse_binary_request` has left in the operation. -/
def binReqOf (opcode : Nat) (b : BinReq) : BReq :=
  match binWriteCmd opcode with
  | some cmd => .write ⟨{ cmd := cmd, entry := b.entry, value := b.value }, b.cas⟩
  | none =>
    match opcode with
    | 0x00 | 0x09 | 0x0c | 0x0d => .get b.entry.key
    | 0x07 | 0x17 => .quit
    | 0x08 | 0x18 => .flush
    | 0x0a => .noop
    | 0x0b => .version
    | _ => .unknown

/-- `_opcode` of the operation: its own, and for an unknown one the default of the constructor, that of noop
(/repo/src/lib/op.h:91, /repo/src/lib/op_error.cc:39-41). -/
def answerCode (opcode : Nat) : Nat :=
  match binReqOf opcode { op := .other } with
  | .unknown => 0x0a
  | _ => opcode

/-! ### Reading -/

/-- What comes of reading a binary request. -/
inductive BTook where
  | over
  /-- the parameters are refused; the body has been read -/
  | bad (opcode : Nat) (rest : Bytes)
  /-- the connection ends within the body -/
  | cut (opcode : Nat)
  | req (opcode : Nat) (r : BReq) (rest : Bytes)
  | other
  | ub
  deriving DecidableEq, Repr

/-- One request from the stream: /repo/src/lib/op_parser.h:79-113, /repo/src/lib/op_parser_binary.cc:53-65,
/repo/src/lib/op.cc:111-121 (`Conn.binRequest` over packets). -/
def takeBin (now : Int64) (s : Bytes) : BTook :=
  match s.head? with
  | none => .over
  | some m =>
    if m ≠ 0x80 then .other
    else if s.length < hSize then .over
    else
      let h := s.take hSize
      let n := bodySize (hget h .totalBodyLength)
      let opcode := hget h .opcode
      if opcode = 0x10 then .other
      else if s.length < hSize + n then .cut opcode
      else match cutRequest now h ((s.drop hSize).take n) with
        | .error .ub => .ub
        | .error .err => .bad opcode (s.drop (hSize + n))
        | .ok b => .req opcode (binReqOf opcode b) (s.drop (hSize + n))

/-! ### Answering -/

/-- The status of a result, /repo/src/lib/op.cc:193-225. -/
def binStatus : OpResult → Nat
  | .none_ | .ok | .end_ | .stored | .deleted | .found | .touched => 0
  | .notStored => 5
  | .exists_ => 2
  | .notFound => 1
  | .error | .clientError | .serverError => 0x84

/-- `status_cast`, /repo/src/lib/binary_header.h:158-240, for the statuses in use. -/
def binStatusText : Nat → Bytes
  | 1 => ascii "Not found"
  | 2 => ascii "Key exists"
  | 5 => ascii "Item not stored"
  | 0x84 => ascii "Internal error"
  | _ => []

/-- `op::_send_binary_result`, /repo/src/lib/op.cc:193-241. -/
def binResult (opcode : Nat) (r : OpResult) (msg : Bytes) : Except Fault Bytes :=
  let st := binStatus r
  let msg := if st = 0 ∨ st = 0x84 then cstr msg else binStatusText st
  let msg := if msg = [] then binStatusText st else msg
  sendBin (hset (hset (hnew 0x81 opcode) .third st) .totalBodyLength msg.length) msg

/-- `op_incr::_send_binary_result`, /repo/src/lib/op_incr.cc:288-303; a value that begins with a digit
(`istringstream >>` gives the largest number if it is too large). -/
def binNumber (opcode : Nat) (e : Entry) : Except Fault Bytes :=
  let n := decValue ((e.data.take e.size.toNat).takeWhile isDigit)
  sendBin (hset (hnew 0x81 opcode) .totalBodyLength 8) (beBytes 8 (if n < 2 ^ 64 then n else 2 ^ 64 - 1))

/-- `op_gat::_send_binary_result`, /repo/src/lib/op_gat.cc:127-140. -/
def binTouched (opcode : Nat) (e : Entry) : Except Fault Bytes :=
  match responseBin e (hnew 0x81 opcode) false with
  | .error f => .error f
  | .ok (hdr, body) => sendBin hdr body

/-- `_send_binary_result` of a write. -/
def binSend (opcode : Nat) (cmd : WriteCmd) (r : OpResult) (msg : Bytes) (e : Option Entry) : Except Fault Bytes :=
  match cmd, r, e with
  | .incr, .stored, some e | .decr, .stored, some e => binNumber opcode e
  | .incr, .stored, none | .decr, .stored, none => .error .ub
  | .gat, .touched, some e => binTouched opcode e
  | _, _, _ => binResult opcode r msg

/-- `_run_server` of the writes after the proxy and the storage, as `writeAnswer`: a forwarded `incr` that
has been done is answered with the message of the queue entry, as in the text protocol
(/repo/src/lib/op_incr.cc:163-165).  Requests of the binary protocol have no options. -/
def binWriteAnswer (opcode : Nat) (cmd : WriteCmd) : Done → Except Fault Bytes
  | .noQueue => binResult opcode .serverError (ascii "proxy failure")
  | .noPartition => binResult opcode .serverError (ascii "no partition available")
  | .sent ok res msg e =>
    if !ok then binResult opcode .serverError (ascii "proxy error")
    else if cmd.kind = .count ∧ res = .stored then .ok msg
    else binSend opcode cmd res msg e
  | .own o =>
    match o.rc, o.r with
    | .ub, _ => .error .ub
    | .err, _ => binResult opcode .serverError (ascii "i/o error")
    | .ok, none => .error .ub
    | .ok, some res => binSend opcode cmd res.toOp [] (some o.e)

/-- The entry of the queue or of the request, /repo/src/lib/op_get.cc:155-181. -/
def slotAt (key : Bytes) : ReadAt → GetSlot
  | .asked g => g
  | a => ownSlot key a

/-- `_send_binary_entry`, /repo/src/lib/op_get.cc:341-369; the end of the list is not sent
(/repo/src/lib/op_get.cc:318-326). -/
def binGot (opcode : Nat) (key : Bytes) (a : ReadAt) : Except Fault Bytes :=
  let g := slotAt key a
  if g.avail then sendBinEntry opcode g.e
  else
    let key := g.e.key
    let hdr := hset (hnew 0x81 opcode) .third 1
    if opcode = 0x0c ∨ opcode = 0x0d then
      sendBin (hset (hset hdr .keyLength key.length) .totalBodyLength (key.length + (binStatusText 1).length))
        (key ++ binStatusText 1)
    else sendBin (hset hdr .totalBodyLength (binStatusText 1).length) (binStatusText 1)

/-- "flare-1.3.4", /repo/src/lib/op_version.cc:87-93. -/
def binVersion (opcode : Nat) : Except Fault Bytes :=
  sendBin (hset (hnew 0x81 opcode) .totalBodyLength 11) (ascii "flare-1.3.4")

/-- The rest of the node, with a state of any kind. -/
structure BBack (σ : Type) where
  write : σ → HeldOp → σ × Done
  read : σ → Bytes → σ × ReadAt
  status : σ → σ × Option Bytes
  flush : σ → σ × Bool

variable {σ : Type}

/-- The first part of `_run_server`. -/
def bPerform (B : BBack σ) (st : σ) : BReq → σ × Did
  | .write op => ((B.write st op).1, .wrote (B.write st op).2)
  | .get k => ((B.read st k).1, .got [(k, (B.read st k).2)])
  | .noop => ((B.status st).1, .status (B.status st).2)
  | .flush => ((B.flush st).1, .flushed (B.flush st).2)
  | .version | .quit | .unknown => (st, .nothing)

/-- The bytes sent for a request. -/
def bAnswer (opcode : Nat) : BReq → Did → Except Fault Bytes
  | .write op, .wrote d => binWriteAnswer opcode op.req.cmd d
  | .get k, .got [(_, a)] => binGot opcode k a
  | .noop, .status none => binResult opcode .ok []
  | .noop, .status (some m) => binResult opcode .serverError m
  | .version, _ => binVersion opcode
  | .flush, .flushed ok =>
    if ok then binResult opcode .ok [] else binResult opcode .serverError (ascii "unknown error")
  | .quit, _ => binResult opcode .end_ []
  | .unknown, _ => binResult (answerCode opcode) .error []
  | _, _ => .error .ub

/-- A session: the state of the node, what has been done, the bytes sent and the end. -/
structure BTalk (σ : Type) where
  st : σ
  did : List (BReq × Did) := []
  out : Bytes := []
  stop : Stop
  deriving DecidableEq, Repr

/-- What a turn puts before the rest of the session. -/
def BTalk.after (d : List (BReq × Did)) (b : Bytes) (t : BTalk σ) : BTalk σ :=
  { t with did := d ++ t.did, out := b ++ t.out }

/-- The loop, with `op::run_server` (/repo/src/lib/op.cc:66-75). -/
def binSession (B : BBack σ) (now : Int64) : Nat → σ → Bytes → BTalk σ
  | 0, st, _ => { st := st, stop := .running }
  | n + 1, st, s =>
    match takeBin now s with
    | .over => { st := st, stop := .closed }
    | .other => { st := st, stop := .other }
    | .ub => { st := st, stop := .ub }
    | .cut op =>
      match binResult (answerCode op) .error [] with
      | .error _ => { st := st, stop := .ub }
      | .ok b => { st := st, out := b, stop := .closed }
    | .bad op rest =>
      match binResult (answerCode op) .error [] with
      | .error _ => { st := st, stop := .ub }
      | .ok b => (binSession B now n st rest).after [] b
    | .req op r rest =>
      let p := bPerform B st r
      match bAnswer op r p.2 with
      | .error _ => { st := p.1, did := [(r, p.2)], stop := .ub }
      | .ok b =>
        if r = .quit then { st := p.1, did := [(r, p.2)], out := b, stop := .quit }
        else (binSession B now n p.1 rest).after [(r, p.2)] b

/-- A session over all that a client sends. -/
def binServeAll (B : BBack σ) (now : Int64) (st : σ) (s : Bytes) : BTalk σ :=
  binSession B now (s.length + 1) st s

end Flare
