import Verif.Model.Text
import Verif.Model.Retry

/-! Model of `get` and `gets` (/repo/src/lib/op_get.cc): reading the keys, reading them here or at
another node, and answering; and of the read that is handed to another node
(/repo/src/lib/queue_proxy_read.cc:66-112).

Simplifications.
* Text protocol.  Where each key is read is given (`ReadAt`); the decision is `preRead` of
  Model/Routing.
* A read handed to another node has been waited for (`q->sync()`), so that its queue entry does not
  change any more.
* What a node sends is a byte stream per try: all that arrives until the connection fails, or
  until the time to wait has passed.  Bytes read into a line or block that is not completed are
  dropped (/repo/src/lib/connection_tcp.cc:349-355, :433-436).
* Statistics are left out. -/
namespace Flare

/-- An entry with the information whether its data pointer is set (`is_data_available()`). -/
structure GetSlot where
  e : Entry
  avail : Bool := false
  deriving DecidableEq, Repr

/-! ### The keys of a request -/

/-- The loop of `op_get::_parse_text_server_parameters`, /repo/src/lib/op_get.cc:81-93. -/
def getKeysLoop : Nat → Bytes → Bytes → Except Fault (List Bytes)
  | 0, _, _ => .error .err
  | n + 1, p, q =>
    match scanWord p q with
    | .error f => .error f
    | .ok (p, q) =>
      if cstr q = [] then .ok []
      else match getKeysLoop n p q with
        | .error f => .error f
        | .ok ks => .ok (cstr q :: ks)

/-- `op_get::_parse_text_server_parameters`, /repo/src/lib/op_get.cc:73-101, on the rest of the line:
no key is an error. -/
def getKeys (line q : Bytes) : Except Fault (List Bytes) :=
  match getKeysLoop (line.length + 1) line q with
  | .error f => .error f
  | .ok [] => .error .err
  | .ok ks => .ok ks

/-! ### Answering -/

/-- What has become of the read of one key. -/
inductive ReadAt where
  /-- read from the own storage -/
  | here (o : Out)
  /-- handed to another node: the entry of the queue -/
  | asked (g : GetSlot)
  /-- no partition, or no node to ask -/
  | refused
  deriving DecidableEq, Repr

/-- `q_map`, /repo/src/lib/op_get.cc:126: the last entry for a key counts. -/
def askedMap : List (Bytes × ReadAt) → List (Bytes × GetSlot)
  | [] => []
  | (k, .asked g) :: rs => askedMap rs ++ [(k, g)]
  | _ :: rs => askedMap rs

def askedFor (rs : List (Bytes × ReadAt)) (k : Bytes) : Option GetSlot :=
  ((askedMap rs).find? fun x => x.1 = k).map (·.2)

/-- The element of `_entry_list` after the first loop.  The storage sets the data only where it
reports success. -/
def ownSlot (k : Bytes) : ReadAt → GetSlot
  | .here o => { e := o.e, avail := o.rc = .ok ∧ o.r = some .none_ }
  | .asked _ => { e := { key := k } }
  | .refused => { e := { key := k } }

/-- `_send_text_entry`, /repo/src/lib/op_get.cc:320-331. -/
def sendSlot (t : ResponseType) (g : GetSlot) : Option Bytes :=
  if g.avail then response t g.e else some []

/-- The second loop, /repo/src/lib/op_get.cc:155-181; `rs` is the whole request.  The success of a
queue entry is not looked at. -/
def sendAll (t : ResponseType) (rs : List (Bytes × ReadAt)) : List (Bytes × ReadAt) → Option Bytes
  | [] => some (strEnd ++ crlf)
  | (k, r) :: more =>
    match sendSlot t ((askedFor rs k).getD (ownSlot k r)), sendAll t rs more with
    | some b, some bs => some (b ++ bs)
    | _, _ => none

/-- `op_get::_run_server`, /repo/src/lib/op_get.cc:116-186: the bytes sent to the client.  `none` is
undefined behaviour. -/
def getServe (t : ResponseType) (rs : List (Bytes × ReadAt)) : Option Bytes := sendAll t rs rs

/-! ### Asking another node -/

/-- `op_get::_run_client`, /repo/src/lib/op_get.cc:188-200.  The object made for the queue
(/repo/src/lib/queue_proxy_read.cc:118-122) always speaks the text protocol. -/
def getRequest (t : ResponseType) (k : Bytes) : Bytes :=
  (if t = .gets then [103, 101, 116, 115] else [103, 101, 116]) ++ chSpace :: cstr k ++ crlf

inductive GetEnd where
  | done | failed | ub
  deriving DecidableEq, Repr

def GetEnd.ofFault : Fault → GetEnd
  | .err => .failed
  | .ub => .ub

/-- `op_get::_parse_text_client_parameters`, /repo/src/lib/op_get.cc:215-264: how it ends, the entry
(changed step by step) and what is left of the stream.  Every round takes a byte. -/
def getClient (now : Int64) (w q : Bytes) : Nat → Bytes → GetSlot → GetEnd × GetSlot × Bytes
  | 0, s, g => (.failed, g, s)
  | n + 1, s, g =>
    match readLine s with
    | none => (.failed, g, [])
    | some (line, s) =>
      if line = strEnd ++ [chNl] then (.done, g, s)
      else match scanWord line w with
        | .error f => (.ofFault f, g, s)
        | .ok (p, w') =>
          if cstr w' ≠ strValue then (.failed, g, s)
          else match entryParse now .get p q { key := [] } with
            | .error f => (.ofFault f, g, s)
            | .ok e =>
              if g.e.key ≠ e.key then (.failed, g, s)
              else
                let h := { g.e with
                  flag := e.flag, expire := e.expire, size := e.size, version := e.version }
                match readSize (e.size.toNat + 2) s with
                | .error f => (.ofFault f, { g with e := h }, [])
                | .ok (d, s) =>
                  getClient now w q n s
                    { e := { h with data := d.take e.size.toNat }, avail := true }

/-- One pass of the loop in `queue_proxy_read::run`: what arrives, and whether the connection is
closed when the pass fails. -/
structure GetTry where
  stream : Bytes
  closed : Bool := true
  deriving DecidableEq, Repr

/-- The loop of `queue_proxy_read::run`, /repo/src/lib/queue_proxy_read.cc:79-104.  `left` is what has
not been read of the connection; only a closed connection is opened again. -/
def getTries (now : Int64) (w q : Bytes) : Nat → List GetTry → Bytes → GetSlot →
    GetEnd × GetSlot × Bytes
  | 0, _, left, g => (.failed, g, left)
  | _ + 1, [], left, g => (.failed, g, left)
  | n + 1, t :: ts, left, g =>
    match getClient now w q ((left ++ t.stream).length + 1) (left ++ t.stream) g with
    | (.failed, g, rest) => getTries now w q n ts (if t.closed then [] else rest) g
    | r => r

/-- The queue entry of a forwarded read after its tries on a connection without unread bytes. -/
def askOther (now : Int64) (w q : Bytes) (k : Bytes) (ts : List GetTry) : GetEnd × GetSlot × Bytes :=
  getTries now w q maxRetry ts [] { e := { key := k } }

end Flare
