import Verif.Model.Control
import Verif.Model.Session
import Verif.Model.Cluster

/-!
# A session with an index server

`handler_request::run` of flarei (/repo/src/flarei/handler_request.cc:57-98) takes one command after the other
from a connection, carries it out and sends the answer.  Nodes and administrators use the same commands.

Left out: time-outs (see `Model/Slow` for what they do to a session), failures of writes to the connection
(`Model/Wire`), the names a thread is given for `stats threads`.  What the cluster does with a command, and what
other sessions do at the same time, is a parameter (`IxBack`).
-/

namespace Flare

/-- `op_stats::stats_type` without the error, /repo/src/lib/op_stats.h:44-56. -/
inductive StatsKind where
  | default | items | slabs | sizes | threads | threadsRequest | threadsSlave | threadsQueue | nodes
  deriving DecidableEq, Repr

/-- A command that has been read. -/
inductive IxReq where
  | add (name : Bytes) (port : Int32)
  | remove (name : Bytes) (port : Int32)
  | role (r : RoleReq)
  | state (r : StateReq)
  | shutdown (name : Bytes) (port : Int32)
  | kill (id : Nat)
  | metaInfo
  | stats (k : StatsKind)
  | variables
  | ping
  | version
  | verbosity (level : Int) (noreply : Bool)
  | quit
  deriving DecidableEq, Repr

/-- What comes of reading a command. -/
inductive IxTook where
  /-- the connection ends, or the session does not go on (a binary request) -/
  | over
  /-- the parameters are refused -/
  | bad (rest : Bytes)
  | req (r : IxReq) (rest : Bytes)
  | ub
  deriving DecidableEq, Repr

/-- The end of reading parameters: `op::run_server` (/repo/src/lib/op.cc:68-77) answers ERROR if they are
refused. -/
def IxTook.of (s : Bytes) : Except Fault IxReq → IxTook
  | .ok r => .req r s
  | .error .err => .bad s
  | .error .ub => .ub

/-- `util::next_word(p+n, q, sizeof(q)); if (q[0]) throw -1;`. -/
def noMore (r : IxReq) (p q : Bytes) : Except Fault IxReq :=
  match scanWord p q with
  | .error f => .error f
  | .ok (_, q) => if cstr q = [] then .ok r else .error .err

/-- Name and port and nothing else: `_parse_text_server_parameters` of `node add`, `node remove` and
`shutdown`, /repo/src/lib/op_node_add.cc:75-117, /repo/src/lib/op_node_remove.cc:75-118,
/repo/src/lib/op_shutdown.cc:74-117. -/
def nodeParams (r : Bytes → Int32 → IxReq) (p q : Bytes) : Except Fault IxReq :=
  match scanNode p q with
  | .error f => .error f
  | .ok (name, port, p, q) => noMore (r name port) p q

/-- `op_node_role::_parse_text_server_parameters`, /repo/src/lib/op_node_role.cc:78-153: what stands behind the
two optional numbers is not looked at. -/
def roleParams (p q : Bytes) : Except Fault RoleReq :=
  match scanNode p q with
  | .error f => .error f
  | .ok (name, port, p, q) =>
    match scanWord p q with
    | .error f => .error f
    | .ok (p, q) =>
      match roleCast (cstr q) with
      | none => .error .err
      | some role =>
        match scanIntOr (-1) p q with
        | .error f => .error f
        | .ok (balance, p, q) =>
          match scanIntOr (-1) p q with
          | .error f => .error f
          | .ok (partition, _, _) => .ok ⟨name, port, role, balance, partition⟩

/-- `op_node_state::_parse_text_server_parameters`, /repo/src/lib/op_node_state.cc:77-135. -/
def stateParams (p q : Bytes) : Except Fault IxReq :=
  match scanNode p q with
  | .error f => .error f
  | .ok (name, port, p, q) =>
    match scanWord p q with
    | .error f => .error f
    | .ok (p, q) =>
      match stateCast (cstr q) with
      | none => .error .err
      | some state => noMore (.state ⟨name, port, state⟩) p q

/-- `op_kill::_parse_text_server_parameters`, /repo/src/lib/op_kill.cc:59-95. -/
def killParams (p q : Bytes) : Except Fault IxReq :=
  match scanDigit p q with
  | .error f => .error f
  | .ok (p, q) =>
    if cstr q = [] then .error .err
    else match lexUnsigned 32 (cstr q) with
      | none => .error .err
      | some id => noMore (.kill id) p q

/-- `op_stats::_parse_stats_type`, /repo/src/lib/op_stats.cc:58-93, with two buffers of 8192 bytes. -/
def statsParams (p w : Bytes) : Except Fault IxReq :=
  match scanWord p w with
  | .error f => .error f
  | .ok (p, w') =>
    if cstr w' = [] then .ok (.stats .default)
    else if cstr w' = ascii "items" then .ok (.stats .items)
    else if cstr w' = ascii "slabs" then .ok (.stats .slabs)
    else if cstr w' = ascii "sizes" then .ok (.stats .sizes)
    else if cstr w' = ascii "threads" then
      match scanWord p w with
      | .error f => .error f
      | .ok (_, w) =>
        if cstr w = [] then .ok (.stats .threads)
        else if cstr w = ascii "request" then .ok (.stats .threadsRequest)
        else if cstr w = ascii "slave" then .ok (.stats .threadsSlave)
        else if cstr w = ascii "queue" then .ok (.stats .threadsQueue)
        else .error .err
    else if cstr w' = ascii "nodes" then .ok (.stats .nodes)
    else .error .err

/-- `op_show::_parse_text_server_parameters`, /repo/src/lib/op_show.cc:59-81. -/
def showParams (p w : Bytes) : Except Fault IxReq :=
  match scanWord p w with
  | .error f => .error f
  | .ok (_, w) => if cstr w = ascii "variables" then .ok .variables else .error .err

/-- `op_verbosity::_parse_text_server_parameters`, /repo/src/lib/op_verbosity.cc:71-118. -/
def verbosityParams (p w : Bytes) : Except Fault IxReq :=
  match scanDigit p w with
  | .error f => .error f
  | .ok (p, w) =>
    match lexInt (cstr w) with
    | none => .error .err
    | some level =>
      match parseOptions (p.length + 1) (p, w, { key := [] }) with
      | .error f => .error f
      | .ok (_, _, e) =>
        if e.option &&& optSync ≠ 0 then .error .err
        else .ok (.verbosity level.toInt (e.option &&& optNoreply ≠ 0))

/-- `op_parser_text_index::_determine_op` (/repo/src/flarei/op_parser_text_index.cc:58-103) and the parameters of
the operation it makes.  `q` is a buffer of 1024, `w` one of 8192 bytes. -/
def ixParams (first p q w : Bytes) : Except Fault IxReq :=
  if first = ascii "ping" then noMore .ping p q
  else if first = ascii "stats" then statsParams p w
  else if first = ascii "node" then
    match scanWord p w with
    | .error f => .error f
    | .ok (p, second) =>
      if cstr second = ascii "add" then nodeParams .add p q
      else if cstr second = ascii "remove" then nodeParams .remove p q
      else if cstr second = ascii "role" then (roleParams p q).map .role
      else if cstr second = ascii "state" then stateParams p q
      else .error .err
  else if first = ascii "kill" then killParams p q
  else if first = ascii "quit" then noMore .quit p q
  else if first = ascii "meta" then noMore .metaInfo p q
  else if first = ascii "verbosity" then verbosityParams p w
  else if first = ascii "version" then noMore .version p w
  else if first = ascii "show" then showParams p w
  else if first = ascii "shutdown" then nodeParams .shutdown p q
  else .error .err

/-- `op_parser::parse_server` and `op_parser_text::parse_server` (/repo/src/lib/op_parser.h:79-113,
/repo/src/lib/op_parser_text.cc:53-87), then the parameters.  The binary parser of an index server knows no
operation (/repo/src/flarei/op_parser_binary_index.h:40), which ends the session. -/
def takeIx (first q w s : Bytes) : IxTook :=
  if s.head? = some 0x80 then .over
  else match readLine s with
  | none => .over
  | some (line, s) =>
    match parseServer line first with
    | .error _ => .ub
    | .ok (_, word, p) => .of s (ixParams word p q w)

/-! ### Carrying out and answering -/

/-- The rest of the index server, with a state of any kind.  `true`: the return value is not negative. -/
structure IxBack (σ : Type) where
  add : σ → Bytes → Int32 → σ × Bool
  remove : σ → Bytes → Int32 → σ × Bool
  role : σ → RoleReq → σ × Bool
  state : σ → StateReq → σ × Bool
  shutdown : σ → Bytes → Int32 → σ × Bool
  /-- `cluster::get_node` -/
  nodes : σ → σ × List NodeLine
  info : σ → Meta
  /-- is there a thread with this number? -/
  kill : σ → Nat → σ × Bool
  /-- names and values of `stats` -/
  report : σ → StatsKind → σ × List (Bytes × Bytes)
  /-- the lines of `show variables` -/
  vars : σ → σ × List Bytes
  status : σ → σ × Option Bytes
  /-- has the thread of the session been asked to end? -/
  asked : σ → Bool

/-- What has been done for a command. -/
inductive IxDid where
  | ended (ok : Bool)
  | listed (ns : List NodeLine)
  | info (m : Meta)
  | stats (l : List (Bytes × Bytes))
  | vars (l : List Bytes)
  | status (detail : Option Bytes)
  | nothing
  deriving DecidableEq, Repr

variable {σ : Type}

/-- `_run_server` without the answer.  `node add` reads the node map after `add_node` has given back its locks
(/repo/src/lib/op_node_add.cc:119-126). -/
def ixPerform (B : IxBack σ) (st : σ) : IxReq → σ × IxDid
  | .add name port =>
    match B.add st name port with
    | (st, false) => (st, .ended false)
    | (st, true) => ((B.nodes st).1, .listed (B.nodes st).2)
  | .remove name port => ((B.remove st name port).1, .ended (B.remove st name port).2)
  | .role r => ((B.role st r).1, .ended (B.role st r).2)
  | .state r => ((B.state st r).1, .ended (B.state st r).2)
  | .shutdown name port => ((B.shutdown st name port).1, .ended (B.shutdown st name port).2)
  | .kill id => ((B.kill st id).1, .ended (B.kill st id).2)
  | .metaInfo => (st, .info (B.info st))
  | .stats k => ((B.report st k).1, .stats (B.report st k).2)
  | .variables => ((B.vars st).1, .vars (B.vars st).2)
  | .ping => ((B.status st).1, .status (B.status st).2)
  | .version | .verbosity _ _ | .quit => (st, .nothing)

/-- What is said if a command fails. -/
def IxReq.failure : IxReq → Bytes
  | .add _ _ => ascii "failed to add node"
  | .remove _ _ => ascii "failed to remove node"
  | .role _ => ascii "failed to set role (and balance)"
  | .state _ => ascii "failed to set state"
  | .shutdown _ _ => ascii "failed to shutdown"
  | .kill _ => ascii "thread not found"
  | _ => []

/-- The answer: /repo/src/lib/op_node_add.cc:119-138, /repo/src/lib/op_node_remove.cc:120-127,
/repo/src/lib/op_node_role.cc:155-162, /repo/src/lib/op_node_state.cc:137-144,
/repo/src/lib/op_shutdown.cc:119-126, /repo/src/lib/op_kill.cc:97-114, /repo/src/lib/op_meta.cc:94-130,
/repo/src/flarei/op_stats_index.cc:64-97 with /repo/src/lib/op_stats.cc:265-269 and :281-291,
/repo/src/flarei/op_show_index.cc:64-103, /repo/src/lib/op_ping.cc:78-86,
/repo/src/lib/op_verbosity.cc:124-132, /repo/src/lib/op_version.cc:77-85, /repo/src/lib/op_quit.cc:83-89. -/
def ixAnswer (r : IxReq) : IxDid → Bytes
  | .ended true => resultLine .ok []
  | .ended false => resultLine (match r with | .kill _ => .clientError | _ => .serverError) r.failure
  | .listed ns => nodeLines ns
  | .info m => metaAnswer m
  | .stats l => (l.map fun x => ascii "STAT " ++ x.1 ++ chSpace :: x.2 ++ crlf).flatten ++ resultLine .end_ []
  | .vars l => (l.map fun x => x ++ crlf).flatten ++ resultLine .end_ []
  | .status none => resultLine .ok []
  | .status (some m) => resultLine .serverError m
  | .nothing =>
    match r with
    | .version => versionLine
    | .verbosity _ noreply => if noreply then [] else resultLine .ok []
    | _ => resultLine .end_ []

/-! ### The loop -/

/-- A session: the state of the server, what has been done, the bytes sent and the end. -/
structure IxTalk (σ : Type) where
  st : σ
  did : List (IxReq × IxDid) := []
  out : Bytes := []
  stop : Stop
  deriving DecidableEq, Repr

def IxTalk.after (d : List (IxReq × IxDid)) (b : Bytes) (t : IxTalk σ) : IxTalk σ :=
  { t with did := d ++ t.did, out := b ++ t.out }

/-- `handler_request::run`, /repo/src/flarei/handler_request.cc:57-98.  Every turn takes a byte, so that the
length of the stream bounds their number. -/
def ixSession (B : IxBack σ) (first q w : Bytes) : Nat → σ → Bytes → IxTalk σ
  | 0, st, _ => { st := st, stop := .running }
  | n + 1, st, s =>
    match takeIx first q w s with
    | .over => { st := st, stop := .closed }
    | .ub => { st := st, stop := .ub }
    | .bad rest =>
      if B.asked st then { st := st, out := resultLine .error [], stop := .quit }
      else (ixSession B first q w n st rest).after [] (resultLine .error [])
    | .req r rest =>
      let p := ixPerform B st r
      if r = .quit ∨ B.asked p.1 = true then
        { st := p.1, did := [(r, p.2)], out := ixAnswer r p.2, stop := .quit }
      else (ixSession B first q w n p.1 rest).after [(r, p.2)] (ixAnswer r p.2)

/-- A session over all that a client sends. -/
def serveIx (B : IxBack σ) (first q w : Bytes) (st : σ) (s : Bytes) : IxTalk σ :=
  ixSession B first q w (s.length + 1) st s

/-! ### The index server behind it -/

/-- An index server with the failures of its surroundings that are still to come: each command takes one. -/
structure IxHost where
  ix : Index
  env : List IEnv := []
  deriving DecidableEq, Repr

/-- A command of the cluster. -/
def IxHost.run (h : IxHost) (c : ICmd) : IxHost × Bool :=
  let r := ixStep (h.env.headD {}) h.ix c
  (⟨r.1, h.env.drop 1⟩, 0 ≤ r.2)

/-- A node of the map as it is listed, /repo/src/lib/cluster.cc:339-349 (`get_node`). -/
def listed (name : NodeKey → Bytes × Int32) (e : NodeKey × Node) : NodeLine :=
  ⟨(name e.1).1, (name e.1).2, e.2.role.number, e.2.state.number, Int32.ofInt e.2.partition,
    Int32.ofInt e.2.balance, Int32.ofInt e.2.threadType⟩

/-- An index server as the rest of a session.  `key` numbers the nodes; `name` is the way back.  The answers that
do not depend on the node map are parameters. -/
def IxHost.back (key : Bytes → Int32 → NodeKey) (name : NodeKey → Bytes × Int32) (m : Meta)
    (report : StatsKind → List (Bytes × Bytes)) (vars : List Bytes) : IxBack IxHost where
  add h n p := h.run (.add (key n p))
  remove h n p := h.run (.remove (key n p))
  role h r := h.run (.role (key r.name r.port) r.role r.balance.toInt r.partition.toInt)
  state h r := h.run (.state (key r.name r.port) r.state)
  shutdown h n p := h.run (.down (key n p))
  nodes h := (h, h.ix.nodes.map (listed name))
  info _ := m
  kill h _ := (h, false)
  report h k := (h, report k)
  vars h := (h, vars)
  status h := (h, none)
  asked _ := false

end Flare
