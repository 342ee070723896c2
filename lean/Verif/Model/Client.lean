import Verif.Model.Errand
import Verif.Model.Control

/-!
Model of the client library (/repo/src/lib/client.cc): one connection to a node, `connect`, `disconnect`, `get`, `gets`,
`add` and `cas`.

Simplifications:
* The node, the connection and the bytes are those of Model/Errand: a call sends its request once and reads what comes
  (`run_client`, /repo/src/lib/op_proxy_read.cc:60-66).
* A connection that breaks is noticed, and closed, by the call whose answer it cuts; one that breaks after the answer is
  noticed by a later call.
* The entry given to `get` and `gets` is taken with the data pointer it has. -/
namespace Flare

/-- A client object: whether its socket is open, and what is at the other end and on the way. -/
structure ClientSt where
  up : Bool := false
  desk : Desk
  deriving DecidableEq, Repr

inductive ClientCall where
  | connect
  | disconnect
  /-- `get` or `gets` with the entry of the caller -/
  | get (y : ResponseType) (k : Bytes) (g : GetSlot)
  | add (k d : Bytes) (flag : UInt32)
  /-- `add(string, int, int)` -/
  | addInt (k : Bytes) (d : Int32) (flag : UInt32)
  | cas (k d : Bytes) (flag : UInt32) (version : UInt64)
  deriving DecidableEq, Repr

/-- What happens during a call: whether `open` succeeds if it is called, and the try. -/
structure ClientTurn where
  opens : Bool := true
  try_ : ErrandTry
  deriving Repr

/-- What the caller is told. -/
inductive ClientSaid where
  /-- `connect` and `disconnect`: 0 or -1 -/
  | code (ok : Bool)
  | result (r : OpResult)
  /-- `get` and `gets`: the result, and the entry of the caller -/
  | value (r : OpResult) (g : GetSlot)
  | ub
  deriving DecidableEq, Repr

/-- What the caller is told, and what the node has done for the call. -/
structure ClientTold where
  said : ClientSaid
  did : List ErrandDid := []
  deriving DecidableEq, Repr

/-- `add` (/repo/src/lib/client.cc:128-157) and `cas` (/repo/src/lib/client.cc:172-202): the entry that is sent. -/
def clientWrite (cmd : WriteCmd) (k d : Bytes) (flag : UInt32) (version : UInt64) : WriteReq :=
  { cmd, entry := { key := k, flag, version, size := UInt64.ofNat d.length, data := d } }

/-- The request of a call; `add` of a number is `add` of its text, /repo/src/lib/client.cc:162-167. -/
def ClientCall.errand : ClientCall → Option Errand
  | .connect | .disconnect => none
  | .get y k _ => some (.read y k)
  | .add k d flag => some (.write (clientWrite .add k d flag 0))
  | .addInt k d flag => some (.write (clientWrite .add k (printInt d) flag 0))
  | .cas k d flag version => some (.write (clientWrite .cas k d flag version))

/-- The other clients of the node go on. -/
def ClientSt.meanwhile (c : ClientSt) (t : ClientTurn) : ClientSt :=
  { c with desk := { c.desk with store := run c.desk.store t.try_.before } }

/-- `connection_tcp::open` on a closed connection, /repo/src/lib/connection_tcp.cc:126-164. -/
def ClientSt.open_ (c : ClientSt) (t : ClientTurn) : ClientSt := { c with up := t.opens }

def ErrandEnd.isFailed : ErrandEnd → Bool
  | .failed => true
  | _ => false

/-- `run_client`: nothing can be written to a closed socket (/repo/src/lib/connection_tcp.cc:470-474); a write that
fails closes it (/repo/src/lib/connection_tcp.cc:514-523), and so does the end of the stream. -/
def ClientSt.ask (P : ErrandBufs) (e : Errand) (g : GetSlot) (t : ClientTurn) (c : ClientSt) : ClientSt × ErrandTold :=
  if c.up = false then (c.meanwhile t, { ends := .failed, slot := g })
  else
    let (k, r) := errandTry P e t.try_ c.desk g
    ({ up := t.try_.sent && !(t.try_.breaks && r.ends.isFailed), desk := k }, r)

/-- `p->get_result()` if `run_client` has succeeded, /repo/src/lib/client.cc:145-156. -/
def clientResult : ErrandEnd → ClientSaid
  | .wrote (.sent _ r _ _) => .result r
  | .ub => .ub
  | _ => .result .error

/-- `add` and `cas`: a closed connection is opened first, /repo/src/lib/client.cc:129-134 and :173-178. -/
def ClientSt.write (P : ErrandBufs) (r : WriteReq) (t : ClientTurn) (c : ClientSt) : ClientSt × ClientTold :=
  let c := if c.up then c else c.open_ t
  if c.up = false then (c.meanwhile t, { said := .result .error })
  else
    let (c, x) := c.ask P (.write r) { e := r.entry } t
    (c, { said := clientResult x.ends, did := x.did })

/-- `get` and `gets`, /repo/src/lib/client.cc:92-123: the key is put into the entry of the caller; the data pointer
tells whether something was found. -/
def clientGot (r : ErrandTold) : ClientSaid :=
  match r.ends with
  | .got => .value (if r.slot.avail then .ok else .notFound) r.slot
  | .ub => .ub
  | _ => .value .error r.slot

/-- One call.  `connect` is /repo/src/lib/client.cc:60-71 and `disconnect` /repo/src/lib/client.cc:76-87: it returns if
the connection is available and closes it if it is not. -/
def ClientSt.call (P : ErrandBufs) (t : ClientTurn) (c : ClientSt) : ClientCall → ClientSt × ClientTold
  | .connect =>
    if c.up then (c.meanwhile t, { said := .code true })
    else ((c.open_ t).meanwhile t, { said := .code t.opens })
  | .disconnect =>
    if c.up then (c.meanwhile t, { said := .code true })
    else ({ up := false, desk := { c.desk with wire := [] } : ClientSt }.meanwhile t, { said := .code true })
  | .get y k g =>
    let (c, x) := c.ask P (.read y k) { g with e := { g.e with key := k } } t
    (c, { said := clientGot x, did := x.did })
  | .add k d flag => c.write P (clientWrite .add k d flag 0) t
  | .addInt k d flag => c.write P (clientWrite .add k (printInt d) flag 0) t
  | .cas k d flag version => c.write P (clientWrite .cas k d flag version) t

/-- Calls one after the other. -/
def ClientSt.calls (P : ErrandBufs) : List (ClientCall × ClientTurn) → ClientSt → ClientSt × List ClientTold
  | [], c => (c, [])
  | (x, t) :: l, c =>
    let (c, r) := c.call P t x
    let (c, rs) := c.calls P l
    (c, r :: rs)

end Flare
