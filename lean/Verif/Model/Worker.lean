/-! Model of the life of a thread of a pool: `thread_run` and the methods of `thread`, /repo/src/lib/thread.cc, with
`thread_pool::get` and `clean`, /repo/src/lib/thread_pool.cc.

One thread object is followed from its creation.  Every access to something that others use is one step: the thread, the
caller that takes it from the pool and gives it a handler, those that shut it down and those that put entries into its
queue take turns in any order.

Simplifications.
* Of the pool only what concerns this thread: whether it is on the stack and whether it is in the map.  Whether there is
  room on the stack is free, and the caller takes this thread from the stack at any time.
* `pthread_create` succeeds.
* A handler is a number.  It may process the entry at the head of the queue and may return at any time; whether it looks
  at the request to shut down is its own business.
* Setting and sending the signal of `_cond_running` are one step, and the signal wakes the caller that has waited longest.
* The wait of `thread::dequeue` (C45) and of `shutdown` with a limit of 60 seconds is not followed; what `shutdown` looks
  at before it waits is `stopped`.
* Memory accesses are sequential, also those without a lock. -/
namespace Flare

/-- `shutdown_request`, /repo/src/lib/thread.h:74-78. -/
inductive WorkReq where
  | none
  | graceful
  | force
  deriving DecidableEq, Repr

/-- Where `thread_run` is.  `c`: in the clause that catches the request. -/
inductive WorkAt where
  /-- before `wait` takes the lock, thread.cc:57, 199 -/
  | wait
  /-- inside `pthread_cond_wait`; the signal has come, :204 -/
  | asleep (signalled : Bool)
  /-- before the request is looked at, :58 -/
  | woken
  /-- at the start of `run`, :249 -/
  | entry
  /-- in the handler, :260 -/
  | busy (h : Nat)
  /-- before `_running` is reset, :262 -/
  | ended
  /-- before the handler is deleted, :267-272 -/
  | idle
  /-- before the request is looked at, :63 -/
  | after
  /-- before `notify_shutdown`, :74 -/
  | notify
  /-- before `_trigger` is reset in `clean`, :281 -/
  | cleanTrigger (c : Bool)
  /-- before the request is reset, :284 -/
  | cleanReq (c : Bool)
  /-- before the queue is emptied, :290 -/
  | cleanQueue (c : Bool)
  /-- before `thread_pool::clean` looks into the map, thread_pool.cc:156 -/
  | cleanMap (c : Bool)
  /-- before it looks at the stack, thread_pool.cc:169 -/
  | cleanPool (c : Bool)
  /-- after `clean`, thread.cc:69 or :75; `is_pool` -/
  | cleaned (c pool : Bool)
  /-- after the loop, :82 -/
  | leave
  | dead
  deriving DecidableEq, Repr

/-- The caller that has taken the thread from the pool. -/
inductive BossAt where
  /-- nobody has it -/
  | none
  /-- inside `thread_pool::get`, between the two critical sections -/
  | popped
  /-- after `get` -/
  | named
  /-- inside `trigger`, :221-224 done -/
  | gave
  deriving DecidableEq, Repr

/-- An entry of the queue and the handler it is meant for. -/
structure WorkItem where
  goal : Nat
  name : Nat
  deriving DecidableEq, Repr

structure Work where
  at_ : WorkAt := .wait
  boss : BossAt := .popped
  /-- `_trigger` -/
  trigger : Bool := false
  /-- `_shutdown_request` -/
  req : WorkReq := .none
  /-- `_shutdown` -/
  stopped : Bool := false
  /-- `_running` -/
  running : Bool := false
  /-- `_thread_handler` -/
  handler : Option Nat := none
  /-- in the map of the pool -/
  inMap : Bool := false
  /-- on the stack of the pool -/
  inPool : Bool := false
  /-- `_thread_queue` -/
  queue : List WorkItem := []
  /-- Callers of `trigger` that have sent the signal and have not looked at `_running`, :233, with what they gave. -/
  looking : List Nat := []
  /-- Callers inside `pthread_cond_wait`, :235. -/
  waiting : List Nat := []
  /-- Callers of `enqueue` that have seen `_running`, :436. -/
  enq : List WorkItem := []
  /-- What has been given to the thread, what has been started. -/
  given : List Nat := []
  ran : List Nat := []
  /-- What has been put into the queue; what has been taken out, by which handler (`none`: dropped by `clean`). -/
  pushed : List WorkItem := []
  out : List (Option Nat × WorkItem) := []
  deriving DecidableEq, Repr

inductive WorkAct where
  /-- The thread does its next step; `room`: there is room on the stack. -/
  | go (room : Bool)
  /-- The handler takes the entry at the head of the queue. -/
  | serve
  /-- The handler returns. -/
  | finish
  /-- `get`, first section: thread_pool.cc:65-73. -/
  | pop
  /-- `get`, second section: thread_pool.cc:85-107. -/
  | name
  /-- `trigger(h, …)`, first part: thread.cc:221-224. -/
  | give (h : Nat)
  /-- `trigger(h, …)`, second part: :226-230; `sync`: the caller waits for the start. -/
  | fire (sync : Bool)
  /-- The caller that waits for the start looks at `_running`, :233-237. -/
  | look
  /-- `shutdown`, first part: :334. -/
  | mark (graceful : Bool)
  /-- `shutdown`, second part: `trigger(NULL)`, :335, 226-230. -/
  | poke
  /-- `enqueue`, first part: :436-439. -/
  | ask (q : WorkItem)
  /-- `enqueue`, second part: :441-448, the `i`-th that got so far. -/
  | push (i : Nat)
  /-- `pthread_cond_wait` returns without a signal. -/
  | spurious
  deriving DecidableEq, Repr

/-- `_trigger = true` and the signal, thread.cc:226-230. -/
def Work.signal (s : Work) : Work :=
  { s with trigger := true, at_ := if s.at_ = .asleep false then .asleep true else s.at_ }

/-- The next step of `thread_run`, thread.cc:38-85; `none`: it cannot go on. -/
def Work.go (s : Work) (room : Bool) : Option Work :=
  match s.at_ with
  | .wait => some (if s.trigger then { s with trigger := false, at_ := .woken } else { s with at_ := .asleep false })
  | .asleep false => none
  | .asleep true => some { s with trigger := false, at_ := .woken }
  | .woken => some { s with at_ := match s.req with
      | .none => .entry
      | .graceful => .notify
      | .force => .leave }
  | .entry => some (match s.handler with
      | none => { s with at_ := .after }
      | some h => { s with running := true, at_ := .busy h, ran := s.ran ++ [h], waiting := s.waiting.drop 1 })
  | .busy _ => none
  | .ended => some { s with running := false, at_ := .idle }
  | .idle => some { s with handler := none, at_ := .after }
  | .after => some { s with at_ := match s.req with
      | .none => .cleanTrigger false
      | .graceful => .notify
      | .force => .leave }
  | .notify => some { s with stopped := true, at_ := .cleanTrigger true }
  | .cleanTrigger c => some { s with trigger := false, at_ := .cleanReq c }
  | .cleanReq c => some { s with req := if s.req = .graceful then .none else s.req, at_ := .cleanQueue c }
  | .cleanQueue c => some { s with queue := [], out := s.out ++ s.queue.map fun q => (none, q), at_ := .cleanMap c }
  | .cleanMap c => some (if s.inMap then { s with inMap := false, at_ := .cleanPool c } else { s with at_ := .cleaned c false })
  | .cleanPool c => some { s with inPool := s.inPool || room, at_ := .cleaned c room }
  | .cleaned c pool => some { s with at_ := if (c = false ∧ s.req ≠ .none) ∨ pool = false then .leave else .wait }
  | .leave => some { s with stopped := true, at_ := .dead }
  | .dead => none

/-- One step; `none`: not possible. -/
def Work.step (s : Work) : WorkAct → Option Work
  | .go room => s.go room
  | .serve =>
    match s.at_, s.queue with
    | .busy h, q :: qs => some { s with queue := qs, out := s.out ++ [(some h, q)] }
    | _, _ => none
  | .finish =>
    match s.at_ with
    | .busy _ => some { s with at_ := .ended }
    | _ => none
  | .pop => if s.inPool ∧ s.boss = .none then some { s with inPool := false, boss := .popped } else none
  | .name => if s.boss = .popped then some { s with inMap := true, boss := .named } else none
  | .give h => if s.boss = .named then some { s with handler := some h, given := s.given ++ [h], boss := .gave } else none
  | .fire sync =>
    if s.boss = .gave then
      some { s.signal with boss := .none, looking := if sync then s.looking ++ s.given.getLast?.toList else s.looking }
    else none
  | .look =>
    match s.looking with
    | h :: hs => some (if s.running then { s with looking := hs } else { s with looking := hs, waiting := s.waiting ++ [h] })
    | [] => none
  | .mark graceful => some { s with req := if graceful then .graceful else .force }
  | .poke => some s.signal
  | .ask q => some (if s.running then { s with enq := s.enq ++ [q] } else s)
  | .push i =>
    match s.enq[i]? with
    | some q => some { s with enq := s.enq.eraseIdx i, queue := s.queue ++ [q], pushed := s.pushed ++ [q] }
    | none => none
  | .spurious => if s.at_ = .asleep false then some { s with at_ := .asleep true } else none

/-- A history; steps that are not possible do not happen. -/
def Work.run : Work → List WorkAct → Option Work
  | s, [] => some s
  | s, a :: as => (s.step a).bind (·.run as)

end Flare
