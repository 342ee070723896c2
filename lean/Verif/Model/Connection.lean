import Verif.Model.Text

/-! Model of the reading side of `connection_tcp`
(/repo/src/lib/connection_tcp.cc:175-465, 681-703, /repo/src/lib/connection_tcp.h:92-113):
the internal buffer with its lazily deleted part, and a socket that delivers the stream of
the peer in pieces.

Simplifications: the socket is the list of pieces as the successive `poll` calls will find
them, the last one followed by nothing (closed or timed out: `none`); `FIONREAD` reports the
first piece; `read` with a smaller size leaves the rest of the piece.  Interrupted system
calls are not modelled (they are in `Model/Socket`).  Lengths are natural numbers (a connection never holds `INT_MAX`
unread bytes). -/
namespace Flare

/-- `_read_buf` is the first component with `_read_buf_p` as an offset into it;
`_read_buf_len` is what is left of it. -/
structure Conn where
  buf : Option (Bytes × Nat) := none
  net : List Bytes := []
  deriving DecidableEq, Repr

/-- The unread part of the internal buffer (`_read_buf_len` bytes at `_read_buf_p`). -/
def Conn.rest (c : Conn) : Bytes :=
  match c.buf with
  | none => []
  | some (w, pos) => w.drop pos

/-- `_add_read_buf`, /repo/src/lib/connection_tcp.cc:681-698. -/
def Conn.addBuf (c : Conn) (p : Bytes) : Conn := { c with buf := some (c.rest ++ p, 0) }

/-- `push_back`, /repo/src/lib/connection_tcp.h:92-113: where the internal buffer has enough
bytes before the current position, only the position moves. -/
def Conn.pushBack (c : Conn) (p : Bytes) : Conn :=
  match c.buf with
  | some (w, pos) =>
    if p.length ≤ pos then { c with buf := some (w, pos - p.length) }
    else { c with buf := some (p ++ c.rest, 0) }
  | none => { c with buf := some (p, 0) }

/-- The part of `read` for the internal buffer, in readline mode
(/repo/src/lib/connection_tcp.cc:190-214). -/
def Conn.lineFromBuf (c : Conn) : Bytes × Conn :=
  let l := c.rest.takeWhile (· ≠ chNl)
  if l.length < c.rest.length then
    match c.buf with
    | some (w, pos) =>
      (c.rest.take (l.length + 1), { c with buf := some (w, pos + (l.length + 1)) })
    | none => ([], c)
  else (c.rest, { c with buf := none })

/-- The part of `read` for the internal buffer, in binary mode
(/repo/src/lib/connection_tcp.cc:215-233). -/
def Conn.sizeFromBuf (c : Conn) (expect : Nat) : Bytes × Conn :=
  if 0 < expect ∧ expect < c.rest.length then
    match c.buf with
    | some (w, pos) => (c.rest.take expect, { c with buf := some (w, pos + expect) })
    | none => ([], c)
  else (c.rest, { c with buf := none })

/-- `n` bytes from the socket (the loop of `read` where the number is given,
/repo/src/lib/connection_tcp.cc:244-327). -/
def gather : Nat → List Bytes → Option (Bytes × List Bytes)
  | _, [] => none
  | n, s :: net =>
    if n < s.length then some (s.take n, s.drop n :: net)
    else if s.length = n then some (s, net)
    else match gather (n - s.length) net with
      | none => none
      | some (d, net) => some (s ++ d, net)

/-- The part of `read` for the socket (/repo/src/lib/connection_tcp.cc:235-330).  `expect`
is 0 where the code passes -1. -/
def Conn.fromNet (c : Conn) (expect : Nat) : Option (Bytes × Conn) :=
  if 1024 < expect then
    match gather expect c.net with
    | none => none
    | some (d, net) => some (d, { c with net := net })
  else match c.net with
    | [] => none
    | s :: net =>
      if 0 < expect ∧ expect < s.length ∧ s.length < 1024 ∧ c.buf = none then
        some (s.take expect, { buf := some (s, expect), net := net })
      else some (s, { c with net := net })

/-- `read` with `readline = true`: the bytes, whether they come from the socket
(`actual`), and the connection. -/
def Conn.readForLine (c : Conn) : Option (Bytes × Bool × Conn) :=
  if c.rest ≠ [] then some (c.lineFromBuf.1, false, c.lineFromBuf.2)
  else match c.fromNet 0 with
    | none => none
    | some (d, c) => some (d, true, c)

/-- `read` with `readline = false`. -/
def Conn.readForSize (c : Conn) (expect : Nat) : Option (Bytes × Conn) :=
  if c.rest ≠ [] then some (c.sizeFromBuf expect)
  else c.fromNet expect

/-- The loop of `readline`, /repo/src/lib/connection_tcp.cc:342-414; `r` is what has been
read so far. -/
def readlineLoop : Nat → Bytes → Conn → Option (Bytes × Conn)
  | 0, _, _ => none
  | fuel + 1, r, c =>
    match c.readForLine with
    | none => none
    | some (t, actual, c) =>
      if actual = false ∧ r = [] ∧ t.getLast? = some chNl then
        -- the line lies in the internal buffer
        if 1 < t.length ∧ t.dropLast.getLast? = some chCr then
          some (t.dropLast.dropLast ++ [chNl], c)
        else some (t, c)
      else
        let l := t.takeWhile (· ≠ chNl)
        if l.length < t.length then
          let line :=
            if l.getLast? = some chCr then r ++ l.dropLast ++ [chNl]
            else if l = [] ∧ r.getLast? = some chCr then r.dropLast ++ [chNl]
            else r ++ l ++ [chNl]
          let extra := t.drop (l.length + 1)
          some (line, if extra ≠ [] then c.addBuf extra else c)
        else readlineLoop fuel (r ++ t) c

/-- `readline`.  Every round takes a piece from the socket or empties the buffer. -/
def Conn.readline (c : Conn) : Option (Bytes × Conn) := readlineLoop (c.net.length + 2) [] c

/-- The loop of `readsize`, /repo/src/lib/connection_tcp.cc:421-465; `data` is what has been
read so far. -/
def readsizeLoop : Nat → Nat → Bytes → Conn → Option (Bytes × Conn)
  | 0, _, _, _ => none
  | fuel + 1, n, data, c =>
    if data.length < n then
      match c.readForSize (n - data.length) with
      | none => none
      | some (t, c) =>
        if data.length = 0 ∧ t.length = n then some (t, c)
        else if n ≤ data.length + t.length then
          let diff := n - data.length
          readsizeLoop fuel n (data ++ t.take diff)
            (if 0 < t.length - diff then c.addBuf (t.drop diff) else c)
        else readsizeLoop fuel n (data ++ t) c
    else some (data, c)

/-- `readsize`. -/
def Conn.readsize (c : Conn) (n : Nat) : Option (Bytes × Conn) :=
  readsizeLoop (c.net.length + 3) n [] c

/-! ### A request on a connection -/

/-- `op_parser::parse_server` for a text request, /repo/src/lib/op_parser.h:79-113 and
/repo/src/lib/op_parser_text.cc:53-87: the magic byte is read and pushed back, the line is
read, its first word (behind the forwarding path) determines the operation, and the rest of
the line is pushed back for the operation.  A magic byte 0x80 is the binary protocol (not
here: `none`). -/
def Conn.parseServer (c : Conn) (first : Bytes) :
    Except Fault (Option (List Bytes) × Bytes × Conn) :=
  match c.readsize 1 with
  | none => .error .err
  | some (magic, c) =>
    if magic = [0x80] then .error .err
    else match (c.pushBack magic).readline with
      | none => .error .err
      | some (line, c) =>
        match Flare.parseServer line first with
        | .error f => .error f
        | .ok (path, w, rest) => .ok (path, w, c.pushBack rest)

/-- The parameters of a write as the operation reads them from the connection
(`parseParams` is the same on a byte stream). -/
def Conn.parseParams (now : Int64) (cmd : WriteCmd) (path : List Bytes) (q : Bytes) (c : Conn) :
    Except Fault (WriteReq × Conn) :=
  match c.readline with
  | none => .error .err
  | some (line, c) =>
    match cmd.kind with
    | .store =>
      match entryParse now (if cmd = .cas then .cas else .set) line q { key := [] } with
      | .error f => .error f
      | .ok e =>
        if e.size.toNat + 2 > intMax then .error .ub
        else match c.readsize (e.size.toNat + 2) with
          | none => .error .err
          | some (d, c) =>
            .ok ({ cmd := cmd, path := path, entry := { e with data := d.take e.size.toNat } }, c)
    | .count =>
      match parseCount line q { key := [] } with
      | .error f => .error f
      | .ok (e, v) => .ok ({ cmd := cmd, path := path, entry := e, value := v }, c)
    | .delete =>
      match entryParse now .delete line q { key := [] } with
      | .error f => .error f
      | .ok e => .ok ({ cmd := cmd, path := path, entry := e }, c)
    | .touch =>
      match entryParse now .touch line q { key := [] } with
      | .error f => .error f
      | .ok e =>
        if e.option = 0 ∨ e.option = optNoreply then
          .ok ({ cmd := cmd, path := path, entry := e }, c)
        else .error .err

/-- One write request (`decodeWrite` is the same on a byte stream). -/
def Conn.decodeWrite (now : Int64) (first q : Bytes) (c : Conn) :
    Except Fault (WriteReq × Conn) :=
  match c.parseServer first with
  | .error f => .error f
  | .ok (path, w, c) =>
    match writeCmdOf w with
    | none => .error .err
    | some cmd => Conn.parseParams now cmd (path.getD []) q c

end Flare
