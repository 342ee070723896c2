/-! Model of waiting for queued requests: `thread_queue::sync`, `sync_ref` and `sync_unref`
(/repo/src/lib/thread_queue.cc), the callers that enqueue one queue object at several sender
threads and wait for it (/repo/src/lib/cluster.cc), and the sender threads that process it
(/repo/src/lib/handler_proxy.cc, /repo/src/lib/thread.cc).

Simplifications.
* One queue object and one waiting thread, which is how every caller uses it.
* What a sender does with the request is one step, and each sender takes the object from its own
  queue at some time of its own choosing; other objects in these queues are left out.
* Condition variables do not wake spuriously.  `pthread_cond_signal` and taking the mutex again
  in the woken thread are one step: the woken thread looks at nothing the other threads change.
* `_sync`, which `sync_ref` sets without the mutex, is read and written sequentially. -/
namespace Flare

/-- What the thread that owns the queue object does with it, in order. -/
inductive MainOp where
  /-- `q->sync_ref()`. -/
  | ref
  /-- `t->enqueue(q, …)` succeeds, /repo/src/lib/thread.cc:434-466. -/
  | push
  /-- `q->sync_unref()` after `enqueue` failed, /repo/src/lib/cluster.cc:1619-1621. -/
  | unref
  /-- `q->sync()`. -/
  | wait
  deriving DecidableEq, Repr

/-- One place where the object has been enqueued, followed through a sender thread.  `served` is
whether the sender has processed the request, not only dropped it. -/
inductive QJob where
  | queued
  | running
  | ran
  | signalling (served : Bool)
  | done (served : Bool)
  /-- Dequeued and forgotten without `sync_unref`, /repo/src/lib/handler_proxy.cc:91-95. -/
  | lost
  deriving DecidableEq, Repr

structure SyncSt where
  /-- What the owner still has to do. -/
  prog : List MainOp
  /-- The owner is inside `pthread_cond_wait`. -/
  waiting : Bool := false
  /-- `_sync`. -/
  sync : Bool := false
  /-- `_sync_ref_count`. -/
  refs : Int := 0
  jobs : List QJob := []
  deriving DecidableEq, Repr

inductive SyncAct where
  /-- The owner goes on. -/
  | main
  /-- The sender of job `i` goes on. -/
  | work (i : Nat)
  /-- The sender dequeues job `i` after a shutdown request. -/
  | drop (i : Nat)
  /-- `thread::clean` or `~thread` finds job `i` in the queue, /repo/src/lib/thread.cc:126-134,
  289-300. -/
  | flush (i : Nat)
  deriving DecidableEq, Repr

/-- `sync_unref` up to and including the unlock, /repo/src/lib/thread_queue.cc:119-129, called for
job `i`; the signal, if it is to be sent, follows in a step of its own. -/
def SyncSt.unrefJob (st : SyncSt) (i : Nat) (served : Bool) : SyncSt :=
  if !st.sync then { st with jobs := st.jobs.set i (.done served) }
  else { st with
    refs := st.refs - 1
    jobs := st.jobs.set i (if st.refs - 1 = 0 then .signalling served else .done served) }

/-- The owner's next step.  `wait` is /repo/src/lib/thread_queue.cc:84-100: one
`pthread_cond_wait`, not in a loop.  In `unref` the signal is left out: only the owner ever
waits. -/
def SyncSt.mainStep (st : SyncSt) : Option SyncSt :=
  if st.waiting then none
  else match st.prog with
    | [] => none
    | .ref :: p => some { st with prog := p, sync := true, refs := st.refs + 1 }
    | .push :: p => some { st with prog := p, jobs := st.jobs ++ [.queued] }
    | .unref :: p =>
      if !st.sync then some { st with prog := p }
      else some { st with prog := p, refs := st.refs - 1 }
    | .wait :: p =>
      if !st.sync ∨ st.refs = 0 then some { st with prog := p }
      else some { st with prog := p, waiting := true }

/-- One step; `none` if it is not possible.  `work` follows
/repo/src/lib/handler_proxy.cc:84-128. -/
def SyncSt.step (st : SyncSt) : SyncAct → Option SyncSt
  | .main => st.mainStep
  | .work i =>
    match st.jobs[i]? with
    | some .queued => some { st with jobs := st.jobs.set i .running }
    | some .running => some { st with jobs := st.jobs.set i .ran }
    | some .ran => some (st.unrefJob i true)
    | some (.signalling b) => some { st with jobs := st.jobs.set i (.done b), waiting := false }
    | _ => none
  | .drop i =>
    match st.jobs[i]? with
    | some .queued => some { st with jobs := st.jobs.set i .lost }
    | _ => none
  | .flush i =>
    match st.jobs[i]? with
    | some .queued => some (st.unrefJob i false)
    | _ => none

/-- A schedule; `none` if one of its steps is not possible. -/
def SyncSt.run (st : SyncSt) : List SyncAct → Option SyncSt
  | [] => some st
  | a :: as => (st.step a).bind fun st' => st'.run as

/-- Enqueueing the object at several senders; `true` where `enqueue` succeeds,
/repo/src/lib/cluster.cc:1606-1626. -/
def sends : List Bool → List MainOp
  | [] => []
  | true :: ds => .ref :: .push :: sends ds
  | false :: ds => .ref :: .unref :: sends ds

/-- Enqueueing without `sync_ref` (`sync == false`). -/
def asyncSends (n : Nat) : List MainOp := List.replicate n .push

/-- A forwarded read or write: one destination, /repo/src/lib/cluster.cc:1354, 1408-1412,
/repo/src/lib/op_get.cc:154, /repo/src/lib/op_keys.cc:154. -/
def forwardProg (ok : Bool) : List MainOp := sends [ok] ++ if ok then [.wait] else []

/-- `cluster::post_proxy_write` with `sync`: the slaves, the wait, and then the preparing master,
/repo/src/lib/cluster.cc:1463-1492. -/
def replicateProg (slaves : List Bool) (preparing : List Bool) : List MainOp :=
  sends slaves ++ .wait :: sends preparing

/-- `cluster::_broadcast` with `sync == false` and some prior nodes,
/repo/src/lib/cluster.cc:1658-1735. -/
def broadcastProg (prior : List Bool) (others : Nat) : List MainOp :=
  sends prior ++ (if prior.any id then [.wait] else []) ++ asyncSends others

end Flare
