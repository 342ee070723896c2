import Verif.Model.Connection

/-!
The binary protocol: headers (/repo/src/lib/binary_network_mapping.h:42-154,
/repo/src/lib/binary_request_header.h:36-83, /repo/src/lib/binary_response_header.h:36-83), how a request is
read from a connection and cut (/repo/src/lib/op_parser_binary.cc:53-65, /repo/src/lib/op.cc:111-121,
/repo/src/lib/storage.cc:198-206 and the `_parse_binary_request` functions), and the answer with a value
(/repo/src/lib/storage.cc:227-252, /repo/src/lib/op.cc:243-251).

Simplifications: the struct has no padding (the code asserts that it has 24 bytes) and `htons`, `htonl`,
`htonll` put the most significant byte first.  Reading or writing outside a buffer and an exception nobody
catches are the outcome `Fault.ub`.  Memory never runs out.
-/
namespace Flare

/-! ### Headers -/

/-- The fields of a header.  `third` is `vbucket_id` in a request and `status` in a response. -/
inductive HField where
  | magic | opcode | keyLength | extrasLength | dataType | third | totalBodyLength | opaque | cas
  deriving DecidableEq, Repr

/-- Offset in the struct, /repo/src/lib/binary_request_header.h:36-46. -/
def HField.off : HField → Nat
  | .magic => 0 | .opcode => 1 | .keyLength => 2 | .extrasLength => 4 | .dataType => 5 | .third => 6
  | .totalBodyLength => 8 | .opaque => 12 | .cas => 16

/-- Number of bytes. -/
def HField.width : HField → Nat
  | .magic => 1 | .opcode => 1 | .keyLength => 2 | .extrasLength => 1 | .dataType => 1 | .third => 2
  | .totalBodyLength => 4 | .opaque => 4 | .cas => 8

/-- `DEFINE_UINT*_GETTER`, /repo/src/lib/binary_network_mapping.h:124-138. -/
def hget (b : Bytes) (f : HField) : Nat := beNat ((b.drop f.off).take f.width)

/-- `DEFINE_UINT*_SETTER`, /repo/src/lib/binary_network_mapping.h:140-154; the argument is truncated to the
type of the parameter. -/
def hset (b : Bytes) (f : HField) (v : Nat) : Bytes :=
  b.take f.off ++ beBytes f.width (v % 256 ^ f.width) ++ b.drop (f.off + f.width)

/-- `sizeof(T)`. -/
def hSize : Nat := 24

/-- `network_mapping(opcode)`, /repo/src/lib/binary_network_mapping.h:71-78. -/
def hnew (magic opcode : Nat) : Bytes := hset (hset (List.replicate hSize 0) .magic magic) .opcode opcode

/-! ### Reading a request -/

/-- What `readsize(header.get_total_body_length(), &body)` does with the unsigned number
(/repo/src/lib/op.cc:115): the parameter is an `int`, and nothing is read unless it is positive. -/
def bodySize (total : Nat) : Nat := if total ≤ intMax then total else 0

/-- One binary request from a connection: the magic byte is read and pushed back
(/repo/src/lib/op_parser.h:79-101), the header is read for the operation code and pushed back
(/repo/src/lib/op_parser_binary.cc:53-65), and header and body are read by the operation
(/repo/src/lib/op.cc:111-121).  The result is header and body. -/
def Conn.binRequest (c : Conn) : Except Fault (Bytes × Bytes × Conn) :=
  match c.readsize 1 with
  | none => .error .err
  | some (m, c) =>
    if m ≠ [0x80] then .error .err
    else match (c.pushBack m).readsize hSize with
      | none => .error .err
      | some (h, c) =>
        match (c.pushBack h).readsize hSize with
        | none => .error .err
        | some (h, c) =>
          match c.readsize (bodySize (hget h .totalBodyLength)) with
          | none => .error .err
          | some (d, c) => .ok (h, d, c)

/-! ### Cutting a request -/

/-- The operations by how they cut a request.  `other` (quit, flush, version, noop, unknown) does not look
into the body. -/
inductive BinOp where
  | get | set | append | delete | incr | touch | stats | other
  deriving DecidableEq, Repr

/-- `op_parser_binary_node::_determine_op`, /repo/src/flared/op_parser_binary_node.cc:74-199. -/
def binOpOf (opcode : Nat) : BinOp :=
  match opcode with
  | 0x00 | 0x09 | 0x0c | 0x0d => .get
  | 0x01 | 0x02 | 0x03 | 0x11 | 0x12 | 0x13 => .set
  | 0x0e | 0x0f | 0x19 | 0x1a => .append
  | 0x04 | 0x14 => .delete
  | 0x05 | 0x06 | 0x15 | 0x16 => .incr
  | 0x1c | 0x1d | 0x1e => .touch
  | 0x10 => .stats
  | _ => .other

/-- A request as the operation sees it: `value` is the amount of an incr, `cas` whether the store becomes
conditional. -/
structure BinReq where
  op : BinOp
  entry : Entry := { key := [] }
  value : UInt64 := 0
  cas : Bool := false
  deriving DecidableEq, Repr

/-- `entry::parse(header, body)`, /repo/src/lib/storage.cc:198-206.  `body` is NULL (`none`) when nothing
was read. -/
def entryParseBin (h : Bytes) (body : Option Bytes) (e : Entry) : Except Fault Entry :=
  match body with
  | none => .error .err
  | some b =>
    let ext := hget h .extrasLength
    let klen := hget h .keyLength
    if b.length < ext + klen then .error .ub
    else
      .ok { e with key := (b.drop ext).take klen
                   version := UInt64.ofNat (hget h .cas)
                   size := (UInt32.ofNat (hget h .totalBodyLength) - UInt32.ofNat klen
                      - UInt32.ofNat ext).toUInt64 }

/-- A big-endian number at an offset of the body (`ntohl(*(const uint32_t*)(body + o))`). -/
def bodyNat (b : Bytes) (o w : Nat) : Except Fault Nat :=
  if b.length < o + w then .error .ub else .ok (beNat ((b.drop o).take w))

/-- `memcpy(data, body + extras + key, size)`, /repo/src/lib/op_set.cc:106. -/
def bodyData (h b : Bytes) (size : UInt64) : Except Fault Bytes :=
  let o := hget h .extrasLength + hget h .keyLength
  if b.length < o + size.toNat then .error .ub else .ok ((b.drop o).take size.toNat)

/-- `op_set::_parse_binary_request`, /repo/src/lib/op_set.cc:97-111. -/
def parseBinSet (now : Int64) (h : Bytes) (body : Option Bytes) : Except Fault BinReq :=
  if hget h .extrasLength ≠ 8 then .error .err
  else match entryParseBin h body { key := [] } with
    | .error f => .error f
    | .ok e =>
      let b := body.getD []
      match bodyNat b 0 4, bodyNat b 4 4, bodyData h b e.size with
      | .ok flag, .ok exp, .ok d =>
        .ok { op := .set, cas := e.version > 0
              entry := { e with flag := UInt32.ofNat flag
                                expire := realtime now (Int64.ofNat exp)
                                data := d } }
      | _, _, _ => .error .ub

/-- `op_append::_parse_binary_request`, /repo/src/lib/op_append.cc:66-75. -/
def parseBinAppend (h : Bytes) (body : Option Bytes) : Except Fault BinReq :=
  if hget h .extrasLength ≠ 0 then .error .err
  else match entryParseBin h body { key := [] } with
    | .error f => .error f
    | .ok e =>
      match bodyData h (body.getD []) e.size with
      | .ok d => .ok { op := .append, entry := { e with data := d } }
      | .error f => .error f

/-- `op_delete::_parse_binary_request`, /repo/src/lib/op_delete.cc:85-92. -/
def parseBinDelete (h : Bytes) (body : Option Bytes) : Except Fault BinReq :=
  if body = none ∨ hget h .extrasLength ≠ 0 then .error .err
  else match entryParseBin h body { key := [] } with
    | .error f => .error f
    | .ok e => .ok { op := .delete, entry := e }

/-- `op_touch::_parse_binary_request`, /repo/src/lib/op_touch.cc:87-95. -/
def parseBinTouch (now : Int64) (h : Bytes) (body : Option Bytes) : Except Fault BinReq :=
  if body = none ∨ hget h .extrasLength ≠ 4 then .error .err
  else match entryParseBin h body { key := [] } with
    | .error f => .error f
    | .ok e =>
      match bodyNat (body.getD []) 0 4 with
      | .error f => .error f
      | .ok exp => .ok { op := .touch, entry := { e with expire := realtime now (Int64.ofNat exp) } }

/-- `op_get::_parse_binary_request`, /repo/src/lib/op_get.cc:101-112. -/
def parseBinGet (h : Bytes) (body : Option Bytes) : Except Fault BinReq :=
  if hget h .extrasLength ≠ 0 ∨ hget h .keyLength = 0 then .error .err
  else match entryParseBin h body { key := [] } with
    | .error f => .error f
    | .ok e => .ok { op := .get, entry := e }

/-- `op_incr::_parse_binary_request`, /repo/src/lib/op_incr.cc:128-151: the initial value becomes the data
of the entry unless the expiry is 0xffffffff. -/
def parseBinIncr (now : Int64) (h : Bytes) (body : Option Bytes) :
    Except Fault BinReq :=
  if hget h .extrasLength ≠ 20 then .error .err
  else match entryParseBin h body { key := [] } with
    | .error f => .error f
    | .ok e =>
      let b := body.getD []
      match bodyNat b 0 8, bodyNat b 8 8, bodyNat b 16 4 with
      | .ok v, .ok initial, .ok exp =>
        .ok { op := .incr, value := UInt64.ofNat v
              entry :=
                if exp = 0xffffffff then e
                else { e with expire := realtime now (Int64.ofNat exp)
                              size := UInt64.ofNat (decimal initial).length
                              data := decimal initial } }
      | _, _, _ => .error .ub

/-- `op_stats::_parse_binary_request`, /repo/src/lib/op_stats.cc:112-115: `std::string(body, n)` throws
for a NULL pointer with a length.  The choice of the statistics is not modelled. -/
def parseBinStats (h : Bytes) (body : Option Bytes) : Except Fault BinReq :=
  if body = none ∧ hget h .totalBodyLength ≠ 0 then .error .ub else .ok { op := .stats }

/-- `_parse_binary_request` of the operation. -/
def parseBin (now : Int64) (op : BinOp) (h : Bytes) (body : Option Bytes) :
    Except Fault BinReq :=
  match op with
  | .get => parseBinGet h body
  | .set => parseBinSet now h body
  | .append => parseBinAppend h body
  | .delete => parseBinDelete h body
  | .incr => parseBinIncr now h body
  | .touch => parseBinTouch now h body
  | .stats => parseBinStats h body
  | .other => .ok { op := .other }

/-- `op::_parse_binary_server_parameters`, /repo/src/lib/op.cc:111-121, after header and body have been
read: a body of no bytes is NULL. -/
def cutRequest (now : Int64) (h d : Bytes) : Except Fault BinReq :=
  parseBin now (binOpOf (hget h .opcode)) h (if d = [] then none else some d)

/-! ### An answer with a value -/

/-- `memcpy(buf + o, src, n)` into a buffer of a fixed size. -/
def pokeAt (buf : Bytes) (o : Nat) (src : Bytes) : Except Fault Bytes :=
  if buf.length < o + src.length then .error .ub
  else .ok (buf.take o ++ src ++ buf.drop (o + src.length))

/-- `entry::response(header, body, prepend_key)`, /repo/src/lib/storage.cc:227-252: header and body. -/
def responseBin (e : Entry) (hdr : Bytes) (withKey : Bool) : Except Fault (Bytes × Bytes) :=
  let hdr := hset hdr .extrasLength 4
  let hdr := if withKey then hset hdr .keyLength e.key.length else hdr
  let total : UInt32 := 4 + (if withKey then UInt32.ofNat e.key.length else 0) + e.size.toUInt32
  let hdr := hset hdr .totalBodyLength total.toNat
  match pokeAt (List.replicate total.toNat 0) 0 (beBytes 4 e.flag.toNat) with
  | .error f => .error f
  | .ok body =>
    match (if withKey then pokeAt body (hget hdr .extrasLength) e.key else .ok body) with
    | .error f => .error f
    | .ok body =>
      if e.data.length < e.size.toNat then .error .ub
      else match pokeAt body (hget hdr .extrasLength + hget hdr .keyLength) (e.data.take e.size.toNat) with
        | .error f => .error f
        | .ok body => .ok (hdr, body)

/-- `_send_binary_response`, /repo/src/lib/op.cc:243-251: what goes to the connection.  The length is an
`int`. -/
def sendBin (hdr body : Bytes) : Except Fault Bytes :=
  let n := hget hdr .totalBodyLength
  if n > intMax ∨ body.length < n then .error .ub else .ok (hdr ++ body.take n)

/-- `_send_binary_entry` of a found entry, /repo/src/lib/op_get.cc:341-351. -/
def sendBinEntry (opcode : Nat) (e : Entry) : Except Fault Bytes :=
  match responseBin e (hnew 0x81 opcode) (opcode = 0x0c ∨ opcode = 0x0d) with
  | .error f => .error f
  | .ok (hdr, body) => sendBin hdr body

end Flare
