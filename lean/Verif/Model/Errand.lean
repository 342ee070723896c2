import Verif.Model.Fleet

/-!
Reads and writes handed to another node over one connection, one after the other, as bytes.

`handler_proxy::run` and `_process_queue` (/repo/src/lib/handler_proxy.cc:62-166) take reads and writes from the
same queue and carry them out on the same connection: `queue_proxy_write::run` (/repo/src/lib/queue_proxy_write.cc:89-130)
and `queue_proxy_read::run` (/repo/src/lib/queue_proxy_read.cc:66-112) send the request and read what comes; if this
cannot be understood or does not come in time they send it again, at most four times.  The connection is opened again
only if it is closed, and the time to wait running out does not close it (/repo/src/lib/connection_tcp.cc:242-249).

Model/ProxyLink has the writes alone, with lines as tokens.

Simplifications:
* The other node has a storage and carries out what it gets, or refuses it (no partition, or no queue to hand it on); it
  does not hand it on.  Removals of expired records take place at once.
* Bytes that have been read into a line or block that is not completed are dropped
  (/repo/src/lib/connection_tcp.cc:349-355, :433-436).
* What is late arrives before the next request is answered.
* If the connection breaks after the answer has been read, or while no answer is read, this is not noticed; it is then
  the beginning of the next try.
* `keys` is left out (Model/Keys). -/
namespace Flare

/-- What is to be handed on; the writes as they are sent, with the path. -/
inductive Errand where
  | write (r : WriteReq)
  | read (t : ResponseType) (k : Bytes)
  deriving DecidableEq, Repr

/-- The bytes of the request. -/
def Errand.bytes : Errand → Option Bytes
  | .write r => encodeWrite r
  | .read t k => some (getRequest t k)

/-- The buffers of the two nodes. -/
structure ErrandBufs where
  first : Bytes := List.replicate 1024 0
  q : Bytes := List.replicate 8192 0
  w : Bytes := List.replicate 8192 0

/-- One try. -/
structure ErrandTry where
  /-- what others do at the other node before -/
  before : List (Env × Cmd) := []
  env : Env
  /-- the clock of the other node when it reads the request -/
  clk : Int64 := 0
  /-- the clock of the own node when it reads the answer -/
  now : Int64 := 0
  /-- the other node refuses: it has no queue to hand it on (`true`), or no partition -/
  refused : Option Bool := none
  /-- not sent: writing fails, and the connection is closed -/
  sent : Bool := true
  /-- so many bytes of all that has been sent and not been read are there in time (`none`: all) … -/
  inTime : Option Nat := none
  /-- … and then the connection breaks -/
  breaks : Bool := false
  deriving Repr

/-- What the other node has done: for a write how it ended, for a read what was read. -/
inductive ErrandDid where
  | wrote (d : Done)
  | read (a : ReadAt)
  deriving DecidableEq, Repr

/-- What the other node does with a request, `_run_server` of the operations (Model/Session): its storage, what it has
done, and the answer.  `none` is undefined behaviour, or a request that is read as something else. -/
def errandServe (P : ErrandBufs) (t : ErrandTry) (s : Store) (b : Bytes) : Option (Store × ErrandDid × Bytes) :=
  match takeReq t.clk P.first P.q b with
  | .req (.write r) [] =>
    match t.refused with
    | some full =>
      let d := if full then Done.noQueue else Done.noPartition
      (writeAnswer r d).map fun a => (s, .wrote d, a)
    | none =>
      let (s, o) := step s t.env r.call
      (writeAnswer r (.own o)).map fun a => (s, .wrote (.own o), a)
  | .req (.get y [k]) [] =>
    match t.refused with
    | some _ => (getServe y [(k, .refused)]).map fun a => (s, .read .refused, a)
    | none =>
      let (s, o) := step s t.env (.get { key := k } {})
      (getServe y [(k, .here o)]).map fun a => (s, .read (.here o), a)
  | _ => none

/-- What is left of the stream behind the first line. -/
def lineLeft (s : Bytes) : Bytes :=
  match readLine s with
  | none => []
  | some (_, rest) => rest

/-- The line is a VALUE line with the key asked for, so that `op_gat` goes on to read the value,
/repo/src/lib/op_gat.cc:77-97. -/
def gatNamed (now : Int64) (w q s : Bytes) (e : Entry) : Bool :=
  match readLine s with
  | none => false
  | some (line, _) =>
    match scanWord line w with
    | .error _ => false
    | .ok (p, w) => cstr w = strValue && (match entryParse now .get p q { key := [] } with
      | .error _ => false
      | .ok x => e.key = x.key)

/-- What is left of the stream if the answer to a write is not understood: one line is taken, or the value that is
not complete. -/
def writeLeft (now : Int64) (w q : Bytes) (r : WriteReq) (s : Bytes) : Bytes :=
  if r.cmd = .gat ∧ gatNamed now w q s r.entry then [] else lineLeft s

/-- What is there in time, and what is late. -/
def cutAt : Option Nat → Bytes → Bytes × Bytes
  | none, s => (s, [])
  | some n, s => (s.take n, s.drop n)

/-- How a try ends. -/
inductive ErrandEnd where
  | failed
  | ub
  | wrote (d : Done)
  | got
  deriving DecidableEq, Repr

/-- `_parse_text_client_parameters`: how it ends, the entry that is read (changed step by step), and what is left of
the stream. -/
def errandRead (P : ErrandBufs) (now : Int64) (s : Bytes) (g : GetSlot) : Errand → ErrandEnd × GetSlot × Bytes
  | .write r =>
    match writeClient now P.w P.q r s with
    | .ok (d, rest) => (.wrote d, g, rest)
    | .error .ub => (.ub, g, [])
    | .error .err => (.failed, g, writeLeft now P.w P.q r s)
  | .read _ _ =>
    match getClient now P.w P.q (s.length + 1) s g with
    | (.done, g, rest) => (.got, g, rest)
    | (.failed, g, rest) => (.failed, g, rest)
    | (.ub, g, rest) => (.ub, g, rest)

/-- The storage of the other node, and the bytes it has sent that have not been read. -/
structure Desk where
  store : Store
  wire : Bytes := []
  deriving DecidableEq, Repr

/-- What becomes of an errand: how it ends, the entry that is read, and what the other node has done for it. -/
structure ErrandTold where
  ends : ErrandEnd
  slot : GetSlot
  did : List ErrandDid := []
  deriving DecidableEq, Repr

/-- One `run_client`, with `open` behind it if the connection is closed. -/
def errandTry (P : ErrandBufs) (e : Errand) (t : ErrandTry) (k : Desk) (g : GetSlot) : Desk × ErrandTold :=
  let s := run k.store t.before
  if t.sent = false then ({ store := s }, { ends := .failed, slot := g })
  else match e.bytes.bind (errandServe P t s) with
    | none => ({ store := s }, { ends := .ub, slot := g })
    | some (s, d, a) =>
      let (there, late) := cutAt t.inTime (k.wire ++ a)
      let (x, g, rest) := errandRead P t.now there g e
      ({ store := s,
         wire := if t.breaks then (if x = .failed then [] else rest) else rest ++ late },
       { ends := x, slot := g, did := [d] })

/-- The loop of `queue_proxy_write::run` and `queue_proxy_read::run`. -/
def errandRun (P : ErrandBufs) (e : Errand) : Nat → List ErrandTry → Desk → GetSlot → Desk × ErrandTold
  | 0, _, k, g => (k, { ends := .failed, slot := g })
  | _ + 1, [], k, g => (k, { ends := .failed, slot := g })
  | n + 1, t :: ts, k, g =>
    let (k, r) := errandTry P e t k g
    if r.ends = .failed then
      let (k, r') := errandRun P e n ts k r.slot
      (k, { r' with did := r.did ++ r'.did })
    else (k, r)

/-- The entry of the queue, /repo/src/lib/cluster.cc:1348-1352. -/
def Errand.slot : Errand → GetSlot
  | .write r => { e := r.entry }
  | .read _ k => { e := { key := k } }

/-- The loop of the handler. -/
def errands (P : ErrandBufs) : List (Errand × List ErrandTry) → Desk → Desk × List ErrandTold
  | [], k => (k, [])
  | (e, ts) :: es, k =>
    let (k, r) := errandRun P e maxRetry ts k e.slot
    let (k, rs) := errands P es k
    (k, r :: rs)

end Flare
