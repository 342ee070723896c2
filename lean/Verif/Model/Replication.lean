import Verif.Model.Text

/-! Model of replication within a partition: what the master executes and forwards to its
slaves, and what a slave does with it.  The storage is `Verif.Model.Storage`, the wire format
`Verif.Model.Text`.

Simplifications.
* A request is executed and its copy handed over without another request for the same key in
  between; the order of copies in the sender's queues is a separate matter (C33).
* A binary request that carries a version runs with `behavior_cas` under its own ident
  (/repo/src/lib/op_set.cc:97-111); for the master and for the copy that is `cas`.
* Options of the entry (noreply, sync, async) do not matter to the storage and are carried
  along. -/
namespace Flare

/-- The storage call an operation makes: `op_set::_run_server` (/repo/src/lib/op_set.cc:144,
with the behaviour bits of the constructors), `op_incr::_run_server`
(/repo/src/lib/op_incr.cc:178), `op_delete::_run_server` (/repo/src/lib/op_delete.cc:119). -/
def WriteReq.call (r : WriteReq) : Cmd :=
  match r.cmd with
  | .set => .set r.entry .ofSet
  | .add => .set r.entry .ofAdd
  | .replace => .set r.entry .ofReplace
  | .cas => .set r.entry .ofCas
  | .append => .set r.entry .ofAppend
  | .prepend => .set r.entry .ofPrepend
  | .touch | .gat => .set r.entry .ofTouch
  | .incr => .incr r.entry r.value true {}
  | .decr => .incr r.entry r.value false {}
  | .delete => .remove r.entry {}

/-- `queue_proxy_write::_get_op` for a queue that goes to slaves (`is_post_proxy()`),
/repo/src/lib/queue_proxy_write.cc:132-189. -/
def WriteCmd.copy : WriteCmd → WriteCmd
  | .delete => .delete
  | .touch | .gat => .touch
  | _ => .set

/-- When `post_proxy_write` is called: /repo/src/lib/op_set.cc:152-161 (stored or touched),
/repo/src/lib/op_incr.cc:182-189 (stored), /repo/src/lib/op_delete.cc:125-131 (deleted). -/
def WriteCmd.copies (c : WriteCmd) (r : Option Result) : Bool :=
  match c with
  | .incr | .decr => r == some .stored
  | .delete => r == some .deleted
  | _ => r == some .stored || r == some .touched

/-- The copy that goes to the slaves of a partition, if any.  The entry is the one the storage
call has left in the operation (`_entry` is passed by reference; the queue is made from it,
/repo/src/lib/cluster.cc:1463).  `path` are the names put in front of the request. -/
def copyOf (path : List Bytes) (r : WriteReq) (o : Out) : Option WriteReq :=
  if r.cmd.copies o.r then some { cmd := r.cmd.copy, path := path, entry := o.e } else none

/-- The master executes a client's request. -/
def atMaster (m : Store) (env : Env) (path : List Bytes) (r : WriteReq) :
    Store × Option WriteReq :=
  let (m', o) := step m env r.call
  (m', copyOf path r o)

/-- A copy on its way: the line the sender writes (`encodeWrite`) is read by the slave at time
`now`.  `none`: the sender overran its buffer, or the slave made something else of the bytes
than one request. -/
def deliver (now : Int64) (c : WriteReq) : Option WriteReq :=
  match encodeWrite c with
  | none => none
  | some b =>
    match decodeWrites now (List.replicate 1024 0) (List.replicate 8192 0) 1 b with
    | .ok ([r], []) => some r
    | _ => none

/-- A slave executes a copy: the request it reads is executed by the same code as at the
master; it is not forwarded again (C32). -/
def atSlave (s : Store) (env : Env) (c : WriteReq) : Store :=
  match deliver env.now c with
  | some r => (step s env r.call).1
  | none => s

/-- What happens in the life of a master and a slave: a client's write at the master, whose
copy the slave executes in `arrival`; reads at either of them; flush_all at the master, which
empties the local storage and tells nobody (/repo/src/lib/op_flush_all.cc:133-147).  The stores influence each other
by copies only, so listing a write and its arrival together covers every way in which the
slave lags behind, as long as copies are executed in order. -/
inductive Event where
  | write (env : Env) (path : List Bytes) (r : WriteReq) (arrival : Env)
  | readMaster (env : Env) (e : Entry)
  | readSlave (env : Env) (e : Entry)
  | flushMaster (env : Env)
  deriving Repr

/-- Both stores after an event. -/
def Event.apply (ms : Store × Store) : Event → Store × Store
  | .write env path r arrival =>
    let (m', c) := atMaster ms.1 env path r
    (m', match c with
      | some c => atSlave ms.2 arrival c
      | none => ms.2)
  | .readMaster env e => ((get ms.1 env e {}).1, ms.2)
  | .readSlave env e => (ms.1, (get ms.2 env e {}).1)
  | .flushMaster env => ((truncate ms.1 env).1, ms.2)

/-- Both stores after a list of events. -/
def replicate (ms : Store × Store) (evs : List Event) : Store × Store :=
  evs.foldl Event.apply ms

end Flare
