/-! Model of the thread that watches a node, /repo/src/lib/handler_monitor.cc.

Simplifications.
* What the network and the node map say is input: whether a check succeeded, whether the connection
  is available, whether the map knows the node and says it is down.
* The counter is an integer, so `int` overflow after 2^31 failures is not modelled; `C45_bounded`
  shows that the counter stays near the threshold while the map knows the node.
* Intervals, timeouts and log messages are left out. -/
namespace Flare

/-- What the thread asks of the controller: `cluster::request_down_node` and `request_up_node`,
/repo/src/lib/cluster.cc:1083-1094. -/
inductive MonReq where
  | down | up
  deriving DecidableEq, Repr

/-- Threshold and counter, /repo/src/lib/handler_monitor.h:52-55. -/
structure Mon where
  threshold : Int
  failed : Int
  deriving DecidableEq, Repr

/-- What `dequeue` gives, /repo/src/lib/thread.cc:388-429, with the outcome of the work it leads
to. -/
inductive MonGot where
  /-- nothing within the interval: the node is checked, with this outcome of `_process_monitor` -/
  | check (ok : Bool)
  /-- new options -/
  | option (threshold : Int)
  /-- a node map to be sent; outcome of `queue_node_sync::run` -/
  | sync (available ok : Bool)
  /-- a queue entry of another kind -/
  | unknown
  /-- woken without an entry: `dequeue` gives -1 and leaves the pointer empty -/
  | nothing
  deriving DecidableEq, Repr

/-- What `cluster::get_node` says: `none` if the map does not have the node, otherwise whether its
state is down, /repo/src/lib/handler_monitor.cc:98-108. -/
abbrev MonView := Option Bool

/-- `handler_monitor::_down`, /repo/src/lib/handler_monitor.cc:191-202. -/
def Mon.countFailure (m : Mon) : Mon × List MonReq :=
  let m := { m with failed := m.failed + 1 }
  (m, if m.failed = m.threshold then [.down] else [])

/-- `handler_monitor::_up`, /repo/src/lib/handler_monitor.cc:204-212. -/
def Mon.countSuccess (m : Mon) : Mon × List MonReq :=
  ({ m with failed := 0 }, if m.failed ≥ m.threshold then [.up] else [])

/-- The comparison with the node map, /repo/src/lib/handler_monitor.cc:98-108. -/
def Mon.look (m : Mon) : MonView → Mon
  | some true => { m with failed := m.threshold }
  | some false => if m.failed ≥ m.threshold then { m with failed := 0 } else m
  | none => m

/-- `handler_monitor::_process_queue`, /repo/src/lib/handler_monitor.cc:165-189, and what becomes
of its result, :117-123. -/
def Mon.work (m : Mon) : MonGot → Option (Mon × List MonReq)
  | .check ok => some (if ok then m.countSuccess else m.countFailure)
  | .option t => some ({ m with threshold := t }, [])
  | .sync available ok =>
    if m.failed ≥ m.threshold ∧ available = false then some m.countFailure
    else if ok then some (m, []) else some m.countFailure
  | .unknown => some m.countFailure
  -- `q->get_ident()` of an empty pointer
  | .nothing => none

/-- One round of the loop of `handler_monitor::run`, /repo/src/lib/handler_monitor.cc:79-124. -/
def Mon.step (m : Mon) (v : MonView) (g : MonGot) : Option (Mon × List MonReq) :=
  (m.look v).work g

/-- The beginning of `handler_monitor::run`, /repo/src/lib/handler_monitor.cc:66-77; the counter
starts at 0 (:52). -/
def Mon.start (threshold : Int) (connected : Bool) : Mon × List MonReq :=
  if connected then (⟨threshold, 0⟩, []) else Mon.countFailure ⟨threshold, 0⟩

/-- Rounds one after the other. -/
def Mon.rounds : Mon → List (MonView × MonGot) → Option Mon
  | m, [] => some m
  | m, (v, g) :: l =>
    match m.step v g with
    | none => none
    | some (m, _) => Mon.rounds m l

/-! ### The queue of a thread -/

/-- The queue of the monitoring thread and whether the thread waits for a signal. -/
structure MonQueue where
  queue : List MonGot
  waiting : Bool
  deriving DecidableEq, Repr

/-- Steps of `thread::enqueue` (/repo/src/lib/thread.cc:434-458) and `thread::dequeue`
(:388-429) that other threads can see: the entry is pushed under the lock, the signal is sent after
the lock has been released. -/
inductive MonQEv where
  | push (g : MonGot)
  | signal
  /-- the monitoring thread enters `dequeue` -/
  | enter
  deriving DecidableEq, Repr

/-- What `dequeue` returns in that step, if it returns. -/
def MonQueue.step (s : MonQueue) : MonQEv → MonQueue × Option MonGot
  | .push g => ({ s with queue := s.queue ++ [g] }, none)
  | .enter =>
    match s.queue with
    | g :: l => (⟨l, false⟩, some g)
    | [] => (⟨[], true⟩, none)
  | .signal =>
    if s.waiting then
      match s.queue with
      | g :: l => (⟨l, false⟩, some g)
      | [] => (⟨[], false⟩, some .nothing)
    else (s, none)

/-- All that `dequeue` returns. -/
def MonQueue.results : MonQueue → List MonQEv → List MonGot
  | _, [] => []
  | s, e :: l =>
    let (s, r) := s.step e
    r.toList ++ MonQueue.results s l

end Flare
