import Verif.Model.Cluster
import Verif.Model.Monitor

/-! Model of an index server that watches its nodes: the threads that watch a node
(/repo/src/lib/handler_monitor.cc), what they ask of the controller
(`cluster::request_down_node`, `request_up_node`, /repo/src/lib/cluster.cc:1083-1094), the controller that does it
(/repo/src/lib/handler_controller.cc:58-103), and which threads there are.

Simplifications.
* What the nodes answer, and what is put into the queues of the watching threads (`MonGot`), is input.
* A thread that is told to end does so at once; in the code it may still finish its round.
* A request gets into the queue of the controller: `_enqueue` (cluster.cc:1628-1651) fails only while the
  controller is not there yet or ends.
* Threads are always to be had from the pool (C75). -/
namespace Flare

/-- A thread that watches a node.  `begun`: it has tried to connect,
/repo/src/lib/handler_monitor.cc:66-77. -/
structure Watcher where
  mon : Mon
  begun : Bool
  deriving DecidableEq, Repr

structure Ward where
  ix : Index
  watchers : NodeKey → Option Watcher
  /-- The queue of the controller. -/
  queue : List (NodeKey × MonReq)
  /-- `cluster::_monitor_threshold`. -/
  threshold : Int

inductive WardEv where
  /-- A new watching thread tries to connect. -/
  | connect (k : NodeKey) (ok : Bool)
  /-- A watching thread does a round. -/
  | round (k : NodeKey) (g : MonGot)
  /-- The controller takes the next request. -/
  | control (env : IEnv)
  /-- A command of an operator or a node is executed. -/
  | cmd (env : IEnv) (c : ICmd)
  /-- The coordinator reports a change. -/
  | update (env : IEnv)
  /-- `cluster::set_monitor_threshold`, /repo/src/lib/cluster.cc:1185-1195; the watching threads are told
  through their queues, which is a round with `option`. -/
  | threshold (t : Int)
  deriving DecidableEq, Repr

/-- What `get_node` tells a watching thread, /repo/src/lib/handler_monitor.cc:98-108. -/
def Ward.view (s : Ward) (k : NodeKey) : MonView := (mfind s.ix.nodes k).map fun n => n.state = .down

/-- A new `handler_monitor`, /repo/src/lib/cluster.cc:243-247, 474-479, 1844-1849. -/
def Ward.watcher (s : Ward) : Watcher := ⟨⟨s.threshold, 0⟩, false⟩

/-- The watching threads after `_load(true)`, /repo/src/lib/cluster.cc:1826-1852: those of nodes that are
gone end, and nodes that are new get one. -/
def Ward.watchersLoaded (s : Ward) (env : IEnv) : NodeKey → Option Watcher :=
  match load env s.ix with
  | (ix, true) => fun k =>
    match mfind s.ix.nodes k, mfind ix.nodes k with
    | none, none => s.watchers k
    | some _, none => none
    | none, some _ => some s.watcher
    | some _, some _ => s.watchers k
  | (_, false) => s.watchers

/-- The watching threads after a command: `add_node` starts one when the node is new and the map has been
stored (/repo/src/lib/cluster.cc:466-479), `remove_node` ends it before it stores the map (:826-833);
`node state … prepare` is refused at once (:1060-1078). -/
def Ward.watchersAfter (s : Ward) (env : IEnv) (c : ICmd) : NodeKey → Option Watcher :=
  let w := if env.beginOk then s.watchersLoaded env else s.watchers
  let before := (load env s.ix).1.nodes
  let (after, r) := ixStep env s.ix c
  match c with
  | .add k => if r = 0 ∧ mfind before k = none then fun x => if x = k then some s.watcher else w x else w
  | .remove k =>
    if env.beginOk ∧ (load env s.ix).2 ∧ mfind before k ≠ none ∧ mfind after.nodes k = none then
      fun x => if x = k then none else w x
    else w
  | .state _ .prepare => s.watchers
  | _ => w

/-- A command. -/
def Ward.command (s : Ward) (env : IEnv) (c : ICmd) : Ward :=
  { s with ix := (ixStep env s.ix c).1, watchers := s.watchersAfter env c }

/-- `handler_controller::_process_queue`, /repo/src/lib/handler_controller.cc:83-103. -/
def MonReq.command (k : NodeKey) : MonReq → ICmd
  | .down => .down k
  | .up => .up k

/-- A watching thread goes on with `w`, having asked for `r`. -/
def Ward.goOn (s : Ward) (k : NodeKey) (m : Mon) (r : List MonReq) : Ward :=
  { s with watchers := fun x => if x = k then some ⟨m, true⟩ else s.watchers x, queue := s.queue ++ r.map fun q => (k, q) }

/-- `none`: the watching thread uses an empty pointer (C45). -/
def Ward.step (s : Ward) : WardEv → Option Ward
  | .connect k ok =>
    match s.watchers k with
    | some ⟨m, false⟩ =>
      let (m, r) := Mon.start m.threshold ok
      some (s.goOn k m r)
    | _ => some s
  | .round k g =>
    match s.watchers k with
    | some ⟨m, true⟩ => (m.step (s.view k) g).map fun (m, r) => s.goOn k m r
    | _ => some s
  | .control env =>
    match s.queue with
    | [] => some s
    | (k, r) :: q => some ({ s with queue := q }.command env (r.command k))
  | .cmd env c => some (s.command env c)
  | .update env => some { s with ix := update env s.ix, watchers := s.watchersLoaded env }
  | .threshold t => some { s with threshold := t }

def Ward.run (s : Ward) : List WardEv → Option Ward
  | [] => some s
  | e :: l =>
    match s.step e with
    | none => none
    | some s => Ward.run s l

/-- `startup_index`, /repo/src/lib/cluster.cc:196-252: a thread for every node of the map. -/
def Ward.start (saved : Option (Nat × NodeMap × Int)) (threshold : Int) : Option Ward :=
  (startup saved).map fun ix =>
    { ix := ix, watchers := fun k => (mfind ix.nodes k).map fun _ => ⟨⟨threshold, 0⟩, false⟩, queue := [], threshold := threshold }

end Flare
