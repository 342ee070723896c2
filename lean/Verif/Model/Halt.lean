/-! Model of the stop of a data node: the running loop and `shutdown` of flared (/repo/src/flared/flared.cc:305-360,
440-452), `thread_pool::shutdown` (/repo/src/lib/thread_pool.cc:186-211), `thread::shutdown` and `thread_run`
(/repo/src/lib/thread.cc:39-84, 333-368), the loops of `handler_request` (/repo/src/flared/handler_request.cc:60-101) and of
`handler_proxy` (/repo/src/lib/handler_proxy.cc:66-125).

The main thread, the threads that serve clients (clerks) and the threads that send copies to the slave (senders) take turns in
any order; every access to something that others use is one step.

Simplifications.
* One slave.  Clients send writes; the sender that a copy goes to is free (it depends on the key, C33).  A copy that has been
  given to `queue_proxy_write::run` counts as sent; what the network does with it is not followed (C58, C80).
* Writes are numbered in the order in which they are executed.
* The request to wait for the copy (`replication_type` sync) holds for all writes or for none.
* The two parts of `thread_pool::shutdown` (the threads of the map, those on the stack) are one loop over all threads, and
  the stack always has room (thread_pool.cc:170).
* Connecting the sender to the slave, the threads for other work (alarm, reconstruction, MySQL) and the replication to
  another cluster are left out.
* `kill` with a thread's number (C75 in detail) is one step.
* What a clerk does with the senders after their map was emptied is left out: such a write is not begun.
* A wait for a thread that ends ends at the earliest when the thread has said so, or by `giveUp`: time-out after
  `shutdown_timeout` = 60 seconds (thread.h:80) or a wake-up without reason (there is no loop, thread.cc:359). -/
namespace Flare

/-- Where a thread that serves clients is. -/
inductive ClerkAt where
  /-- on the stack of the pool, in `thread::wait`, thread.cc:57 -/
  | idle
  /-- before the next request is read, handler_request.cc:67 -/
  | loop
  /-- in `poll`, connection_tcp.cc:242 -/
  | reading
  /-- a write has been read, whose copy is for sender `j`, :81 -/
  | working (j : Nat)
  /-- in `thread_queue::sync` with write `w`, thread_queue.cc:94 -/
  | waiting (w j : Nat)
  /-- after the request, before the look at the request to stop, handler_request.cc:93 -/
  | after
  /-- the handler has returned, before the look of `thread_run`, thread.cc:63 -/
  | left
  /-- in `thread::clean`, before the lock of the map, thread_pool.cc:156 -/
  | cleaning
  /-- has called `notify_shutdown` for the last time, thread.cc:82 -/
  | ended
  deriving DecidableEq, Repr

structure Clerk where
  loc : ClerkAt := .idle
  /-- `_shutdown_request` is `shutdown_request_force` -/
  asked : Bool := false
  /-- `_shutdown` -/
  shut : Bool := false
  deriving DecidableEq, Repr

/-- Where a thread that sends copies is. -/
inductive SenderAt where
  /-- before the look at the request to stop, handler_proxy.cc:80 -/
  | loop
  /-- before `dequeue` takes the lock, thread.cc:391 -/
  | looking
  /-- in `pthread_cond_wait`, thread.cc:412 -/
  | asleep
  /-- `w` is taken, before the second look, handler_proxy.cc:93 -/
  | holding (w : Nat)
  /-- in `_process_queue`, :120 -/
  | sending (w : Nat)
  /-- `_running` is false and `notify_shutdown` has been called -/
  | ended
  deriving DecidableEq, Repr

structure Sender where
  loc : SenderAt := .loop
  asked : Bool := false
  shut : Bool := false
  queue : List Nat := []
  /-- handed to the slave -/
  sent : List Nat := []
  /-- taken from the queue and forgotten, handler_proxy.cc:93-97 -/
  stranded : List Nat := []
  /-- thrown away with the thread object, thread.cc:120-128; the waiting clerk is woken -/
  dropped : List Nat := []
  /-- refused because the thread is not running, thread.cc:440-443 -/
  refused : List Nat := []
  /-- all writes whose copy was meant for this sender -/
  given : List Nat := []
  deriving DecidableEq, Repr

/-- Where the main thread is. -/
inductive MainAt where
  /-- before the look at `_shutdown_request`, flared.cc:310 -/
  | top
  /-- between the look and `epoll_wait`, :321-326 -/
  | before
  /-- in `epoll_wait` without limit, server.cc:262 -/
  | accept
  /-- the listening sockets are closed, flared.cc:313 -/
  | closed
  /-- the index server has been told, :314 -/
  | told
  /-- `thread_pool::shutdown` of the clerks, at clerk `k`, and waiting for it -/
  | clerk (k : Nat)
  | clerkWait (k : Nat)
  /-- the same for the senders -/
  | sender (k : Nat)
  | senderWait (k : Nat)
  /-- both maps are empty -/
  | cleared
  /-- the storage is closed, :449 -/
  | shut
  /-- the process has ended -/
  | gone
  deriving DecidableEq, Repr

structure Halt where
  /-- `replication_type` is sync -/
  sync : Bool
  clerks : Nat
  senders : Nat
  main : MainAt := .top
  /-- `_shutdown_request` of the application -/
  wanted : Bool := false
  clerk : Nat → Clerk := fun _ => {}
  sender : Nat → Sender := fun _ => {}
  /-- the number of writes executed -/
  executed : Nat := 0
  /-- writes that were answered with success -/
  acked : List Nat := []
  /-- writes answered while the index server's map already says that this node is down -/
  lateAcks : List Nat := []
  /-- the storage was used after it was closed -/
  bad : Bool := false
  /-- seconds spent in `pthread_cond_timedwait` -/
  spent : Nat := 0

inductive HaltEv where
  /-- SIGTERM or SIGINT -/
  | term
  /-- a client connects and gets clerk `i` -/
  | connect (i : Nat)
  /-- the client of clerk `i` sends a write whose copy goes to sender `j`; it closes the connection -/
  | request (i j : Nat)
  | hangup (i : Nat)
  /-- clerk `i` is killed by command while it reads -/
  | kill (i : Nat)
  /-- the next step of clerk `i`, of sender `j` -/
  | clerk (i : Nat)
  | sender (j : Nat)
  /-- `pthread_cond_wait` of sender `j` returns without reason -/
  | spurious (j : Nat)
  /-- the next step of the main thread; if it ends a wait, this took `d` seconds -/
  | main (d : Nat)
  /-- the wait of the main thread ends after `d` seconds although the thread has not ended; otherwise as `main` -/
  | giveUp (d : Nat)
  deriving DecidableEq, Repr

def setAt {α : Type} (f : Nat → α) (i : Nat) (x : α) : Nat → α := fun j => if j = i then x else f j

/-- `thread::shutdown_timeout`, thread.h:80. -/
def shutdownTimeout : Nat := 60

def Halt.setClerk (s : Halt) (i : Nat) (c : Clerk) : Halt := { s with clerk := setAt s.clerk i c }
def Halt.setSender (s : Halt) (j : Nat) (c : Sender) : Halt := { s with sender := setAt s.sender j c }

/-- The request to stop of `thread::shutdown`, thread.cc:336-343: the flag, the trigger, and the signal that ends `poll` with
an error (connection_tcp.cc:265), after which the handler leaves its loop (handler_request.cc:68-76). -/
def Clerk.ask (c : Clerk) : Clerk :=
  { c with asked := true, loc := if c.loc = .reading then .left else c.loc }

/-- The same for a sender: whoever sleeps in `dequeue` wakes up (thread.cc:342), finds nothing and returns to the head of the
loop (handler_proxy.cc:88-92). -/
def Sender.ask (c : Sender) : Sender :=
  { c with asked := true, loc := if c.loc = .asleep then .loop else c.loc }

/-- The main thread is inside `thread_pool::shutdown` of the clerks, which holds the lock of their map, thread_pool.cc:188-198. -/
def MainAt.holdsMap : MainAt → Bool
  | .clerk _ | .clerkWait _ => true
  | _ => false

/-- The map of the clerks has been emptied, thread_pool.cc:195-197. -/
def MainAt.clerksGone : MainAt → Bool
  | .sender _ | .senderWait _ | .cleared | .shut | .gone => true
  | _ => false

/-- The map of the senders has been emptied; their objects are destroyed once the threads have ended. -/
def MainAt.sendersGone : MainAt → Bool
  | .cleared | .shut | .gone => true
  | _ => false

/-- The index server's map says that this node is down. -/
def MainAt.isDown : MainAt → Bool
  | .told | .clerk _ | .clerkWait _ => true
  | m => m.clerksGone

def MainAt.storageClosed : MainAt → Bool
  | .shut | .gone => true
  | _ => false

/-- The client of clerk `i` is told that write `w` succeeded. -/
def Halt.ack (s : Halt) (i w : Nat) : Halt :=
  { s.setClerk i { s.clerk i with loc := .after } with
    acked := s.acked ++ [w], lateAcks := if s.main.isDown then s.lateAcks ++ [w] else s.lateAcks }

/-- The write is executed at the storage (op_set.cc and the others, `run_server`) and its copy enqueued
(`cluster::post_proxy_write`, `_enqueue`, `thread::enqueue`, /repo/src/lib/cluster.cc:1467-1483, 1606-1626, thread.cc:438-462);
a sender that is not running refuses it and there is nothing to wait for (thread_queue.cc:91). -/
def Halt.execute (s : Halt) (i j : Nat) : Halt :=
  if s.main.storageClosed then { s with bad := true } else
  if s.main.sendersGone then s else
  let w := s.executed
  let c := s.sender j
  if c.loc = .ended then
    { (s.setSender j { c with given := c.given ++ [w], refused := c.refused ++ [w] }).ack i w with executed := w + 1 }
  else
    let s1 := s.setSender j { c with given := c.given ++ [w], queue := c.queue ++ [w] }
    if s.sync then { s1.setClerk i { s.clerk i with loc := .waiting w j } with executed := w + 1 }
    else { s1.ack i w with executed := w + 1 }

/-- One step of clerk `i`: `handler_request::run` and `thread_run`. -/
def Halt.clerkStep (s : Halt) (i : Nat) : Halt :=
  let c := s.clerk i
  match c.loc with
  | .idle => if c.asked then s.setClerk i { c with loc := .ended, shut := true } else s
  | .loop => s.setClerk i { c with loc := .reading }
  | .reading => s
  | .working j => s.execute i j
  | .waiting w j => if w ∈ (s.sender j).sent ∨ w ∈ (s.sender j).dropped then s.ack i w else s
  | .after => s.setClerk i { c with loc := if c.asked then .left else .loop }
  | .left => if c.asked then s.setClerk i { c with loc := .ended, shut := true } else s.setClerk i { c with loc := .cleaning }
  | .cleaning =>
    if s.main.holdsMap then s
    else if s.main.clerksGone then s.setClerk i { c with loc := .ended, shut := true }
    else s.setClerk i { c with loc := .idle }
  | .ended => s

/-- One step of a sender: `handler_proxy::run` with `thread::dequeue`; `gone`: the map of the senders is empty, so that the
destructor of an ended thread runs. -/
def Sender.step (c : Sender) (gone : Bool) : Sender :=
  match c.loc with
  | .loop => if c.asked then { c with loc := .ended, shut := true } else { c with loc := .looking }
  | .looking =>
    match c.queue with
    | [] => { c with loc := .asleep }
    | w :: q => { c with loc := .holding w, queue := q }
  | .asleep =>
    match c.queue with
    | [] => c
    | w :: q => { c with loc := .holding w, queue := q }
  | .holding w =>
    if c.asked then { c with loc := .ended, shut := true, stranded := c.stranded ++ [w] } else { c with loc := .sending w }
  | .sending w => { c with loc := .loop, sent := c.sent ++ [w] }
  | .ended => if gone then { c with dropped := c.dropped ++ c.queue, queue := [] } else c

/-- One step of the main thread; `waits = false`: it does not wait any longer. -/
def Halt.mainStep (s : Halt) (waits : Bool) (d : Nat) : Halt :=
  match s.main with
  | .top => { s with main := if s.wanted then .closed else .before }
  | .before => { s with main := .accept }
  | .accept => s
  | .closed => { s with main := .told }
  | .told => { s with main := .clerk 0 }
  | .clerk k => if k < s.clerks then { s.setClerk k (s.clerk k).ask with main := .clerkWait k } else { s with main := .sender 0 }
  | .clerkWait k =>
    if (s.clerk k).shut ∨ waits = false then { s with main := .clerk (k + 1), spent := s.spent + min d shutdownTimeout } else s
  | .sender k => if k < s.senders then { s.setSender k (s.sender k).ask with main := .senderWait k } else { s with main := .cleared }
  | .senderWait k =>
    if (s.sender k).shut ∨ waits = false then { s with main := .sender (k + 1), spent := s.spent + min d shutdownTimeout } else s
  | .cleared => { s with main := .shut }
  | .shut => { s with main := .gone }
  | .gone => s

def Halt.step (s : Halt) (ev : HaltEv) : Halt :=
  if s.main = .gone then s else
  match ev with
  | .term => { s with wanted := true, main := if s.main = .accept then .top else s.main }
  | .connect i =>
    if s.main = .accept ∧ i < s.clerks ∧ (s.clerk i).loc = .idle then
      { s.setClerk i { s.clerk i with loc := .loop } with main := .top }
    else s
  | .request i j =>
    if i < s.clerks ∧ j < s.senders ∧ (s.clerk i).loc = .reading then s.setClerk i { s.clerk i with loc := .working j } else s
  | .hangup i => if i < s.clerks ∧ (s.clerk i).loc = .reading then s.setClerk i { s.clerk i with loc := .left } else s
  | .kill i =>
    if i < s.clerks ∧ (s.clerk i).loc = .reading ∧ s.main.holdsMap = false ∧ s.main.clerksGone = false then
      s.setClerk i { s.clerk i with loc := .idle, shut := true }
    else s
  | .clerk i => if i < s.clerks then s.clerkStep i else s
  | .sender j => if j < s.senders then s.setSender j ((s.sender j).step s.main.sendersGone) else s
  | .spurious j =>
    if j < s.senders ∧ (s.sender j).loc = .asleep ∧ (s.sender j).queue = [] then
      s.setSender j { s.sender j with loc := .loop }
    else s
  | .main d => s.mainStep true d
  | .giveUp d => s.mainStep false d

def Halt.run (s : Halt) (evs : List HaltEv) : Halt := evs.foldl Halt.step s

/-- A node that has just come up, with `n` threads for clients and `m` senders. -/
def Halt.start (sync : Bool) (n m : Nat) : Halt := { sync := sync, clerks := n, senders := m }

end Flare
