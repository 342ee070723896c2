import Verif.Model.Monitor
import Verif.Model.IndexOptions

/-!
Model of the time that the watcher of a node needs, /repo/src/lib/handler_monitor.cc: the rounds of Model/Monitor with a
clock.

Simplifications:
* The connection to the node stays open, and sending takes no time; a node that does not answer is silent.  A connection
  that is refused is a failure at once, which is earlier than all bounds here.
* An answer comes as one line at one moment.
* Timeouts and intervals are not negative (`poll` waits for ever with a negative timeout). -/
namespace Flare

/-- The options of the watcher and its clock in milliseconds, /repo/src/lib/handler_monitor.h:47-56. -/
structure Vigil where
  mon : Mon
  /-- `_monitor_interval`, in seconds -/
  interval : Nat
  /-- `_monitor_read_timeout`, in milliseconds -/
  pingWait : Nat
  /-- the timeout of the connection outside of checks, `connection_tcp::read_timeout` when the connection was made
  (/repo/src/lib/connection_tcp.cc:50) -/
  netWait : Nat
  now : Nat
  deriving DecidableEq, Repr

/-- What comes into the queue of the watcher while it waits for `w` milliseconds. -/
inductive VigilGot where
  /-- nothing within the interval -/
  | nothing
  /-- a node map, `queue_node_sync` -/
  | nodeMap (w : Nat)
  /-- threshold, interval and timeout, `queue_update_monitor_option` -/
  | options (w : Nat) (threshold : Int) (interval pingWait : Nat)
  deriving DecidableEq, Repr

/-- `readline` with a timeout, /repo/src/lib/connection_tcp.cc:241-249, of an answer that comes after some time or never:
how long it takes and whether there is an answer. -/
def awaitLine (timeout : Nat) : Option Nat → Nat × Bool
  | none => (timeout, false)
  | some d => if d < timeout then (d, true) else (timeout, false)

/-- One round of `handler_monitor::run`, /repo/src/lib/handler_monitor.cc:79-124, with `dequeue`
(/repo/src/lib/thread.cc:388-429), `_process_monitor` (/repo/src/lib/handler_monitor.cc:131-163) and `_process_queue`
(:165-189).  `none`: the round does not end. -/
def Vigil.round (v : Vigil) (view : MonView) (answer : Option Nat) : VigilGot → Option (Vigil × List MonReq)
  | .nothing =>
    -- `timeout != 0`, otherwise `pthread_cond_wait`
    if v.interval = 0 then none
    else
      let a := awaitLine v.pingWait answer
      (v.mon.step view (.check a.2)).map fun r =>
        ({ v with mon := r.1, now := v.now + v.interval * 1000 + a.1 }, r.2)
  | .nodeMap w =>
    let a := awaitLine v.netWait answer
    (v.mon.step view (.sync true a.2)).map fun r => ({ v with mon := r.1, now := v.now + w + a.1 }, r.2)
  | .options w t i p =>
    (v.mon.step view (.option t)).map fun r =>
      ({ v with mon := r.1, interval := i, pingWait := p, now := v.now + w }, r.2)

/-- Rounds one after the other, with what the controller is asked and when. -/
def Vigil.run (v : Vigil) : List (MonView × Option Nat × VigilGot) → Option (Vigil × List (Nat × MonReq))
  | [] => some (v, [])
  | (view, answer, a) :: l =>
    match v.round view answer a with
    | none => none
    | some (v', r) =>
      match v'.run l with
      | none => none
      | some (v'', rs) => some (v'', r.map (fun q => (v'.now, q)) ++ rs)

/-- The watcher of a node at an index server, /repo/src/lib/cluster.cc:243-248 and
/repo/src/lib/handler_monitor.cc:66-77; `none` for a timeout that does not fit. -/
def IndexRun.vigil (n : IndexRun) (now : Nat) : Option Vigil :=
  n.set.readTimeout.map fun t =>
    ⟨⟨n.set.monitorThreshold, 0⟩, n.set.monitorInterval.toNat, n.set.monitorReadTimeout.toNat, t.toNat, now⟩

end Flare
