import Verif.Model.Forward
import Verif.Model.Session
import Verif.Model.Shared
import Verif.Spec.Text

/-!
Clients at the nodes of a cluster.  Every node has a storage of its own; a request is carried out where it
arrives or handed to another node, which answers as it would answer a client, and the answer is read and passed
on (`pre_proxy_write` and `pre_proxy_read` of /repo/src/lib/cluster.cc:1305-1417, the operations that call them,
`queue_proxy_write::run` and `queue_proxy_read::run`).  Copies of what has been stored go to the slaves.

Simplifications:
* The node maps do not change.
* The connections between the nodes work: a request that is handed on arrives at once, and is answered (what
  happens otherwise is in Model/Retry, C58, and Model/ProxyLink, C63).  The copies may take any time, overtake each
  other and get lost.
* A request that a node hands on is carried out there by a thread of its own for every client.  In the code the
  requests of several clients share such a thread, and wait for each other.
* Copies are read as they were sent (`arrives`, C35; C11 goes through the bytes).
* At most `fleetHops` nodes are followed.
* No cluster replication and no MySQL replication. -/
namespace Flare

/-! ### Reading the answer to a write that was handed on -/

/-- The line without the newlines and blanks at its end, /repo/src/lib/op_incr.cc:244-253; the first byte stays. -/
def trimAnswer (line : Bytes) : Bytes :=
  let t := ((cstr line).reverse.dropWhile fun c => c = chNl ∨ c = chSpace).reverse
  if t = [] then (cstr line).take 1 else t

/-- `op_incr::_parse_text_client_parameters`, /repo/src/lib/op_incr.cc:233-274, and what `queue_proxy_write::run`
makes of the number, /repo/src/lib/queue_proxy_write.cc:111-125: `char buf[BUFSIZ]` holds 8192 bytes, the number is
copied there whatever its length is (`ub` from 8192 bytes on: the buffer is left, or not terminated), and as much of
the line delimiter as there is room for. -/
def incrClient (q s : Bytes) : Except Fault (Done × Bytes) :=
  match readLine s with
  | none => .error .err
  | some (line, s) =>
    if (lexUnsigned 64 (trimAnswer line)).isSome then
      if (trimAnswer line).length < 8192 then
        .ok (.sent true .stored ((trimAnswer line ++ crlf).take 8191) none, s)
      else .error .ub
    else match parseResponse (trimAnswer line ++ [chNl]) q with
      | .error f => .error f
      | .ok (r, m) => .ok (.sent true r m none, s)

/-- `_parse_text_client_parameters` of the writes: of `op_gat` see `gatClient`; the others read nothing if no
answer is wanted (/repo/src/lib/op_set.cc:213-231, also for `op_touch`; /repo/src/lib/op_delete.cc:170-188). -/
def writeClient (now : Int64) (w q : Bytes) (r : WriteReq) (s : Bytes) : Except Fault (Done × Bytes) :=
  if r.cmd = .gat then
    match gatClient now w q s r.entry with
    | .error f => .error f
    | .ok (res, e, s) => .ok (.sent true res [] (some e), s)
  else if r.entry.option &&& optNoreply ≠ 0 then .ok (.sent true .none_ [] none, s)
  else if r.cmd.kind = .count then incrClient q s
  else match readResponse q s with
    | .error f => .error f
    | .ok ((res, m), s) => .ok (.sent true res m none, s)

/-! ### The cluster -/

/-- What does not change: the resolver, what every node believes, the names of the nodes, the hash function, the
node each client is connected to, and the buffers. -/
structure FleetMap where
  kr : Resolver
  views : NodeKey → View
  name : NodeKey → Bytes
  key : Bytes → NodeKey
  hash : Bytes → Int
  conn : Nat → NodeKey
  first : Bytes := List.replicate 1024 0
  q : Bytes := List.replicate 8192 0
  w : Bytes := List.replicate 8192 0

/-- The storages of the nodes, and the copies that have not arrived. -/
structure Fleet where
  node : NodeKey → Shared
  copies : List (NodeKey × WriteReq) := []

def Fleet.put (f : Fleet) (k : NodeKey) (s : Shared) : Fleet :=
  { f with node := fun x => if x = k then s else f.node x }

/-- What a request meets on its way: the storage where it is carried out, the clocks of the nodes, whether node
`x` can hand something to node `y`, and the random numbers. -/
structure Journey where
  env : Env
  clock : NodeKey → Int64 := fun _ => 0
  room : NodeKey → NodeKey → Bool := fun _ _ => true
  rnd : NodeKey → Nat := fun _ => 0

/-- What becomes of a request: the thread is busy with a removal; or where it was carried out, with the outcome
at the storage, and how it ends for the node where it arrived.  No such end: undefined behaviour, or an answer that
cannot be read, or one that leaves something on the connection. -/
inductive Fate (α : Type) where
  | busy
  | went (f : Fleet) (ran : Option (NodeKey × Out)) (d : Option α)

/-- A call at the storage of a node by thread `c`. -/
def fleetCall (f : Fleet) (k : NodeKey) (c : Nat) (env : Env) (cmd : Cmd) : Option (Fleet × Out) :=
  match (f.node k).due c with
  | some _ => none
  | none =>
    let (st, o, d) := firstSection (f.node k).store env cmd
    some (f.put k (Shared.setDue { f.node k with store := st } c d), o)

/-- The copies of a write that has been carried out, `post_proxy_write`, /repo/src/lib/cluster.cc:1422-1495. -/
def fleetCopies (F : FleetMap) (j : Journey) (me : NodeKey) (r : WriteReq) (o : Out) : List (NodeKey × WriteReq) :=
  match copyOf (r.path ++ [F.name me]) r o with
  | none => []
  | some cp => ((postWrite F.kr me (F.views me) (j.room me) (r.routed F.key F.hash)).getD []).map fun k => (k, cp)

/-- A write at a node: `_run_server` of the writes (/repo/src/lib/op_set.cc:113-181 and others), with the node it
is handed to. -/
def fleetWrite (F : FleetMap) (j : Journey) (c : Nat) : Nat → NodeKey → WriteReq → Fleet → Fate Done
  | 0, _, _, f => .went f none none
  | n + 1, me, r, f =>
    match preWrite F.kr me (F.views me) (j.room me) (r.routed F.key F.hash) with
    | .ub => .went f none none
    | .errPartition => .went f none (some .noPartition)
    | .errEnqueue => .went f none (some .noQueue)
    | .execute =>
      match fleetCall f me c j.env r.call with
      | none => .busy
      | some (f, o) => .went { f with copies := f.copies ++ fleetCopies F j me r o } (some (me, o)) (some (.own o))
    | .forward dst =>
      match encodeWrite (HeldOp.forward (F.name me) ⟨r, false⟩) with
      | none => .went f none none
      | some b =>
        match takeReq (j.clock dst) F.first F.q b with
        | .req (.write r') [] =>
          match fleetWrite F j c n dst r' f with
          | .busy => .busy
          | .went f ran d =>
            .went f ran (match d.bind (writeAnswer r') with
              | none => none
              | some a => match writeClient (j.clock me) F.w F.q r a with
                | .ok (d, []) => some d
                | _ => none)
        | _ => .went f none none

/-- A read of one key at a node, /repo/src/lib/op_get.cc:128-153, with the node it is handed to. -/
def fleetRead (F : FleetMap) (j : Journey) (c : Nat) (t : ResponseType) : Nat → NodeKey → Bytes → Fleet → Fate ReadAt
  | 0, _, _, f => .went f none none
  | n + 1, me, k, f =>
    match preRead F.kr me (F.views me) (j.room me) (j.rnd me) (F.hash k) with
    | .ub => .went f none none
    | .errPartition => .went f none (some .refused)
    | .errEnqueue => .went f none (some .refused)
    | .serve =>
      match fleetCall f me c j.env (.get { key := k } {}) with
      | none => .busy
      | some (f, o) => .went f (some (me, o)) (some (.here o))
    | .forward dst =>
      match takeReq (j.clock dst) F.first F.q (getRequest t k) with
      | .req (.get t' [k']) [] =>
        match fleetRead F j c t' n dst k' f with
        | .busy => .busy
        | .went f ran a =>
          .went f ran (match a.bind fun a => getServe t' [(k', a)] with
            | none => none
            | some b => match askOther (j.clock me) F.w F.q k [⟨b, false⟩] with
              | (.done, g, []) => some (.asked g)
              | _ => none)
      | _ => .went f none none

/-- How many nodes the model follows. -/
def fleetHops : Nat := 3

/-- What a client asks of the node it is connected to. -/
inductive FleetAsk where
  | write (r : WriteReq)
  | read (t : ResponseType) (k : Bytes)
  | clear
  deriving DecidableEq, Repr

/-- How it ends there. -/
inductive FleetDone where
  | wrote (d : Done)
  | got (a : ReadAt)
  | flushed (ok : Bool)
  deriving DecidableEq, Repr

def Fate.map {α β : Type} (g : α → β) : Fate α → Fate β
  | .busy => .busy
  | .went f ran d => .went f ran (d.map g)

/-- A request of client `c`.  `flush_all` is carried out where it arrives and nowhere else,
/repo/src/lib/op_flush_all.cc:133-147. -/
def fleetAsk (F : FleetMap) (f : Fleet) (c : Nat) (j : Journey) : FleetAsk → Fate FleetDone
  | .write r => (fleetWrite F j c fleetHops (F.conn c) r f).map .wrote
  | .read t k => (fleetRead F j c t fleetHops (F.conn c) k f).map .got
  | .clear =>
    match fleetCall f (F.conn c) c j.env .flush with
    | none => .busy
    | some (f, o) => .went f (some (F.conn c, o)) (some (.flushed (o.rc = .ok)))

inductive FleetEv where
  /-- a client sends a request -/
  | ask (c : Nat) (j : Journey) (a : FleetAsk)
  /-- at node `k`, thread `c` removes the record it has found expired -/
  | late (k : NodeKey) (c : Nat) (env : Env)
  /-- copy number `i` arrives and is taken by thread `c` -/
  | arrive (i c : Nat) (j : Journey)
  /-- copy number `i` is lost -/
  | lost (i : Nat)

/-- A copy arrives: the slave handles it like the request of a client. -/
def fleetArrive (F : FleetMap) (f : Fleet) (i c : Nat) (j : Journey) : Fleet :=
  match f.copies[i]? with
  | none => f
  | some (k, r) =>
    match fleetWrite F j c fleetHops k (arrives (j.clock k) r) { f with copies := f.copies.eraseIdx i } with
    | .busy => f
    | .went f _ _ => f

def fleetStep (F : FleetMap) (f : Fleet) : FleetEv → Fleet
  | .ask c j a =>
    match fleetAsk F f c j a with
    | .busy => f
    | .went f _ _ => f
  | .late k c env => f.put k (shStep (f.node k) (.late c env)).1
  | .arrive i c j => fleetArrive F f i c j
  | .lost i => { f with copies := f.copies.eraseIdx i }

def fleetRun (F : FleetMap) (f : Fleet) (l : List FleetEv) : Fleet := l.foldl (fleetStep F) f

end Flare
