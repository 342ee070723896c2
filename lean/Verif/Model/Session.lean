import Verif.Model.Get
import Verif.Model.Cast

/-!
# A session of a client with a node

`handler_request::run` (/repo/src/flared/handler_request.cc:56-98) takes one request after the other from a
connection, carries it out and sends the answer, until the connection ends or the client asks for the end.

Left out: the binary protocol (a request that begins with the magic byte), `stats`, `node sync`, `keys`,
`dump`, `dump_key`, `kill` and `show` (outcome `other`), time-outs, failures of writes to the connection, the
thread's shutdown flag, statistics.  What the cluster and the storage do with a request is a parameter
(`Back`), so that all routing, all other clients and all failures are covered.
-/

namespace Flare

/-- A request that has been read. -/
inductive SReq where
  | write (r : WriteReq)
  | get (t : ResponseType) (keys : List Bytes)
  | ping
  | version
  | verbosity (level : Int) (noreply : Bool)
  | flush (noreply : Bool)
  | quit
  deriving DecidableEq, Repr

/-- What comes of reading a request. -/
inductive Took where
  /-- the connection ends -/
  | over
  /-- the parameters are refused: the bytes left on the connection -/
  | bad (rest : Bytes)
  /-- the connection ends within the value: the parameters are refused -/
  | cut
  | req (r : SReq) (rest : Bytes)
  | other
  | ub
  deriving DecidableEq, Repr

/-- The commands that are left out, /repo/src/flared/op_parser_text_node.cc:92-120. -/
def otherCmds : List Bytes :=
  [ascii "stats", ascii "node", ascii "keys", ascii "dump", ascii "dump_key", ascii "kill", ascii "show"]

/-- `_parse_text_server_parameters` of ping, version and quit: no arguments
(/repo/src/lib/op_ping.cc:58-76, /repo/src/lib/op_version.cc:57-75, /repo/src/lib/op_quit.cc:63-81). -/
def takeBare (r : SReq) (line q s : Bytes) : Took :=
  match scanWord line q with
  | .error _ => .ub
  | .ok (_, q) => if cstr q = [] then .req r s else .bad s

/-- The options of `verbosity` and `flush_all`: `sync` is refused
(/repo/src/lib/op_verbosity.cc:93-109, /repo/src/lib/op_flush_all.cc:102-118). -/
def takeOptions (r : Bool → SReq) (line q s : Bytes) : Took :=
  match parseOptions (line.length + 1) (line, q, { key := [] }) with
  | .error .ub => .ub
  | .error .err => .bad s
  | .ok (_, _, e) => if e.option &&& optSync ≠ 0 then .bad s else .req (r (e.option &&& optNoreply ≠ 0)) s

/-- `op_verbosity::_parse_text_server_parameters`, /repo/src/lib/op_verbosity.cc:71-118. -/
def takeVerbosity (line q s : Bytes) : Took :=
  match scanDigit line q with
  | .error _ => .ub
  | .ok (p, q) =>
    match lexNumber (cstr q) with
    | none => .bad s
    | some (neg, m) =>
      if m ≤ intMax ∨ (neg = true ∧ m = intMax + 1) then
        takeOptions (.verbosity (if neg then -(m : Int) else m)) p q s
      else .bad s

/-- `op_flush_all::_parse_text_server_parameters`, /repo/src/lib/op_flush_all.cc:82-127.  The expiry is
read and not used. -/
def takeFlush (line q s : Bytes) : Took :=
  match scanDigit line q with
  | .error _ => .ub
  | .ok (p, q) =>
    if cstr q ≠ [] ∧ lexTime (cstr q) = none then .bad s else takeOptions .flush p q s

/-- `op_get::_parse_text_server_parameters`, /repo/src/lib/op_get.cc:73-101. -/
def takeGet (t : ResponseType) (line q s : Bytes) : Took :=
  match getKeys line q with
  | .ok ks => .req (.get t ks) s
  | .error .err => .bad s
  | .error .ub => .ub

/-- The parameters of a write.  If the line is refused, the value behind it stays on the connection
(/repo/src/lib/op_set.cc:72-95). -/
def takeWrite (now : Int64) (cmd : WriteCmd) (path : List Bytes) (line q s : Bytes) : Took :=
  match parseParams now cmd path line q s with
  | .ok (r, s) => .req (.write r) s
  | .error .ub => .ub
  | .error .err =>
    if cmd.kind = .store ∧
        (entryParse now (if cmd = .cas then .cas else .set) line q { key := [] }).isOk then .cut
    else .bad s

/-- `op_parser::parse_server`, `op_parser_text::parse_server` and `op_parser_text_node::_determine_op`
(/repo/src/lib/op_parser.h:79-113, /repo/src/lib/op_parser_text.cc:53-87,
/repo/src/flared/op_parser_text_node.cc:62-124), then `_parse_text_server_parameters` of the operation.  `first`
is `char first[1024]`, `q` the buffer of the parameters (of 1024 bytes for ping and quit). -/
def takeReq (now : Int64) (first q s : Bytes) : Took :=
  if s.head? = some 0x80 then .other
  else match readLine s with
  | none => .over
  | some (line, s) =>
    match parseServer line first with
    | .error _ => .ub
    | .ok (path, w, rest) =>
      match writeCmdOf w with
      | some cmd => takeWrite now cmd (path.getD []) rest q s
      | none =>
        if w = ascii "get" then takeGet .get rest q s
        else if w = ascii "gets" then takeGet .gets rest q s
        else if w = ascii "ping" then takeBare .ping rest first s
        else if w = ascii "version" then takeBare .version rest q s
        else if w = ascii "quit" then takeBare .quit rest first s
        else if w = ascii "verbosity" then takeVerbosity rest q s
        else if w = ascii "flush_all" then takeFlush rest q s
        else if w ∈ otherCmds then .other
        else .bad s  -- `op_error`, /repo/src/lib/op_error.cc:56-71

/-! ### Carrying out and answering -/

/-- How a write ends. -/
inductive Done where
  /-- forwarded (`proxy_request_complete`): success, result, message and entry of the queue entry -/
  | sent (ok : Bool) (r : OpResult) (msg : Bytes) (e : Option Entry)
  /-- `proxy_request_error_enqueue` -/
  | noQueue
  /-- `proxy_request_error_partition` -/
  | noPartition
  /-- own storage -/
  | own (o : Out)
  deriving DecidableEq, Repr

/-- What has been done for a request. -/
inductive Did where
  | wrote (d : Done)
  | got (rs : List (Bytes × ReadAt))
  /-- `ping`: the detail if the status is not ok -/
  | status (detail : Option Bytes)
  | flushed (ok : Bool)
  | nothing
  deriving DecidableEq, Repr

/-- The rest of the node, with a state of any kind. -/
structure Back (σ : Type) where
  write : σ → WriteReq → σ × Done
  read : σ → Bytes → σ × ReadAt
  status : σ → σ × Option Bytes
  flush : σ → σ × Bool

variable {σ : Type}

/-- The keys of a `get`, /repo/src/lib/op_get.cc:128-153. -/
def readKeys (B : Back σ) : σ → List Bytes → σ × List (Bytes × ReadAt)
  | st, [] => (st, [])
  | st, k :: ks =>
    let (st, a) := B.read st k
    let (st, rs) := readKeys B st ks
    (st, (k, a) :: rs)

/-- The first part of `_run_server`. -/
def perform (B : Back σ) (st : σ) : SReq → σ × Did
  | .write r => ((B.write st r).1, .wrote (B.write st r).2)
  | .get _ ks => ((readKeys B st ks).1, .got (readKeys B st ks).2)
  | .ping => ((B.status st).1, .status (B.status st).2)
  | .flush _ => ((B.flush st).1, .flushed (B.flush st).2)
  | .version | .verbosity _ _ | .quit => (st, .nothing)

/-- `static_cast<op::result>(storage::result)`. -/
def Result.toOp : Result → OpResult
  | .none_ => .none_
  | .stored => .stored
  | .notStored => .notStored
  | .exists_ => .exists_
  | .notFound => .notFound
  | .deleted => .deleted
  | .found => .found
  | .touched => .touched

/-- `_send_text_result`: of `op_incr` (/repo/src/lib/op_incr.cc:276-287), where `_entry` holds the new number
and more than the buffer of 8192 bytes is undefined; of `op_gat` (/repo/src/lib/op_gat.cc:107-122); of the
others.  `e` is the entry with the value, if there is one. -/
def sendResult (cmd : WriteCmd) (r : OpResult) (msg : Bytes) (e : Option Entry) : Option Bytes :=
  match cmd, r, e with
  | .incr, .stored, some e | .decr, .stored, some e =>
    if e.size.toNat + 2 < 8192 then some (e.data.take e.size.toNat ++ crlf) else none
  | .incr, .stored, none | .decr, .stored, none => none
  | .gat, .touched, some e => response .get e
  | _, _, _ => some (resultLine r msg)

/-- `_run_server` of the writes after the proxy and the storage: /repo/src/lib/op_set.cc:113-180,
/repo/src/lib/op_delete.cc:95-133, /repo/src/lib/op_incr.cc:154-194.  `none` is undefined behaviour. -/
def writeAnswer (r : WriteReq) : Done → Option Bytes
  | .noQueue => some (resultLine .serverError (ascii "proxy failure"))
  | .noPartition => some (resultLine .serverError (ascii "no partition available"))
  | .sent ok res msg e =>
    if r.entry.option &&& optNoreply ≠ 0 then some []
    else if !ok then some (resultLine .serverError (ascii "proxy error"))
    else if r.cmd.kind = .count ∧ res = .stored then some msg
    else if r.cmd.kind = .count then some (resultLine res msg)
    else sendResult r.cmd res msg e
  | .own o =>
    match o.rc, o.r with
    | .ub, _ => none
    | .err, _ => some (resultLine .serverError (ascii "i/o error"))
    | .ok, none => none
    | .ok, some res =>
      if r.entry.option &&& optNoreply ≠ 0 then some [] else sendResult r.cmd res.toOp [] (some o.e)

/-- "VERSION flare-1.3.4", /repo/src/lib/op_version.cc:81-85, /repo/configure.ac:5. -/
def versionLine : Bytes := ascii "VERSION flare-1.3.4\r\n"

/-- The bytes sent for a request: for the writes see `writeAnswer`; /repo/src/lib/op_get.cc:155-186,
/repo/src/lib/op_ping.cc:78-86, /repo/src/lib/op_version.cc:77-85, /repo/src/lib/op_verbosity.cc:124-132,
/repo/src/lib/op_flush_all.cc:133-147, /repo/src/lib/op_quit.cc:83-89. -/
def answer : SReq → Did → Option Bytes
  | .write r, .wrote d => writeAnswer r d
  | .get t _, .got rs => getServe t rs
  | .ping, .status none => some (resultLine .ok [])
  | .ping, .status (some m) => some (resultLine .serverError m)
  | .version, _ => some versionLine
  | .verbosity _ noreply, _ => some (if noreply then [] else resultLine .ok [])
  | .flush noreply, .flushed ok =>
    some (if noreply then [] else if ok then resultLine .ok []
      else resultLine .serverError (ascii "unknown error"))
  | .quit, _ => some (resultLine .end_ [])
  | _, _ => none

/-! ### The loop -/

/-- Why a session ends; `running` is for the bound of the model only. -/
inductive Stop where
  | closed | quit | other | ub | running
  deriving DecidableEq, Repr

/-- A session: the state of the node, what has been done, the bytes sent and the end. -/
structure Talk (σ : Type) where
  st : σ
  did : List (SReq × Did) := []
  out : Bytes := []
  stop : Stop
  deriving DecidableEq, Repr

/-- What a turn puts before the rest of the session. -/
def Talk.after (d : List (SReq × Did)) (b : Bytes) (t : Talk σ) : Talk σ :=
  { t with did := d ++ t.did, out := b ++ t.out }

/-- `handler_request::run`, /repo/src/flared/handler_request.cc:56-98, with `op::run_server`
(/repo/src/lib/op.cc:66-75): refused parameters are answered with ERROR.  Every turn takes a byte, so that
the length of the stream bounds their number. -/
def session (B : Back σ) (now : Int64) (first q : Bytes) : Nat → σ → Bytes → Talk σ
  | 0, st, _ => { st := st, stop := .running }
  | n + 1, st, s =>
    match takeReq now first q s with
    | .over => { st := st, stop := .closed }
    | .other => { st := st, stop := .other }
    | .ub => { st := st, stop := .ub }
    | .cut => { st := st, out := resultLine .error [], stop := .closed }
    | .bad rest => (session B now first q n st rest).after [] (resultLine .error [])
    | .req r rest =>
      let p := perform B st r
      match answer r p.2 with
      | none => { st := p.1, did := [(r, p.2)], stop := .ub }
      | some b =>
        if r = .quit then { st := p.1, did := [(r, p.2)], out := b, stop := .quit }
        else (session B now first q n p.1 rest).after [(r, p.2)] b

/-- A session over all that a client sends. -/
def serveAll (B : Back σ) (now : Int64) (first q : Bytes) (st : σ) (s : Bytes) : Talk σ :=
  session B now first q (s.length + 1) st s

/-! ### A forwarded `gat` -/

/-- `op_gat::_parse_text_client_parameters`, /repo/src/lib/op_gat.cc:62-105: the node that has forwarded a
`gat` reads the answer, also after `noreply`.  The result, the entry and what is left of the stream. -/
def gatClient (now : Int64) (w q s : Bytes) (e : Entry) : Except Fault (OpResult × Entry × Bytes) :=
  match readLine s with
  | none => .error .err
  | some (line, s) =>
    if line = ascii "NOT_FOUND\n" then .ok (.notFound, e, s)
    else match scanWord line w with
      | .error f => .error f
      | .ok (p, w) =>
        if cstr w ≠ strValue then .error .err
        else match entryParse now .get p q { key := [] } with
          | .error f => .error f
          | .ok x =>
            if e.key ≠ x.key then .error .err
            else match readSize (x.size.toNat + 2) s with
              | .error f => .error f
              | .ok (d, s) =>
                .ok (.touched, { e with flag := x.flag, size := x.size, version := x.version,
                                        data := d.take x.size.toNat }, s)

end Flare
