/-! Model of how connections come in: `server::wait`, /repo/src/lib/server.cc:257-366, the main loops `flared::run`,
/repo/src/flared/flared.cc:306-357, and `flarei::run`, /repo/src/flarei/flarei.cc:293-333, with what they use of
`thread_pool`, /repo/src/lib/thread_pool.cc:64-104, 142-176 and 258-266, and the limit on descriptors,
/repo/src/flared/flared.cc:481-502.

Simplifications.
* A connection is a number; a listening socket is a number with the queue of the connections that the kernel holds for it.
  The length of that queue is not limited.
* The main thread is one thread; each of its calls into the pool, and each call by which a session gives its thread back,
  is one step (both hold the lock of the map).  The others run between any two of these steps.
* A session is opaque: it may end at any time.  Its connection is closed when the handler is deleted, before `clean`.
* A reload may happen whenever the main thread is not between the look at the number of threads and `get`; the code has it
  only before and after `wait`.
* The shutdown of the process is left out.  The number of a thread (`_index`) is that of its connection. -/
namespace Flare

/-- What one call of `accept` returns, server.cc:305-316: a socket, EAGAIN or EINTR, or another error. -/
inductive AcceptTry where
  | sock
  | again
  | fail
  deriving DecidableEq, Repr

/-- `accept_retry_limit`, /repo/src/lib/server.h:68. -/
def acceptRetryLimit : Nat := 16

/-- The loop around `accept`, server.cc:305-317: whether it ends with a socket. -/
def acceptTries : Nat → List AcceptTry → Bool
  | 0, _ => false
  | _, [] => false
  | n + 1, t :: ts =>
    match t with
    | .sock => true
    | .again => acceptTries n ts
    | .fail => false

/-- One listening socket that `epoll_wait` reports, and how the calls for the new connection end: `accept`, O_NONBLOCK,
SO_KEEPALIVE, and TCP_NODELAY, which is not called for a Unix socket. -/
structure ReadyEvent where
  listener : Nat
  tries : List AcceptTry := [.sock]
  nonblock : Bool := true
  keepalive : Bool := true
  nodelay : Bool := true
  deriving Repr

/-- What `wait` leaves: the queues of the kernel, the connections it took in order with their sockets, those it returns,
and those it closed. -/
structure Accepted where
  queues : Nat → List Nat
  taken : List (Nat × Nat)
  list : List Nat
  closed : List Nat

/-- The loop over the reported sockets, server.cc:283-363.  `isUnix`: the kind of the socket.  Every failure makes `wait`
return at once with what it has.  `none`: `accept` cannot give a socket if nothing is queued. -/
def acceptAll (isUnix : Nat → Bool) : (Nat → List Nat) → List ReadyEvent → Option Accepted
  | q, [] => some ⟨q, [], [], []⟩
  | q, e :: es =>
    if acceptTries acceptRetryLimit e.tries then
      match q e.listener with
      | [] => none
      | c :: rest =>
        let q' := fun l => if l = e.listener then rest else q l
        if !e.nonblock then some ⟨q', [(e.listener, c)], [], [c]⟩
        else if !e.keepalive then some ⟨q', [(e.listener, c)], [], [c]⟩
        else if !isUnix e.listener && !e.nodelay then some ⟨q', [(e.listener, c)], [], [c]⟩
        else
          (acceptAll isUnix q' es).map fun a =>
            { a with taken := (e.listener, c) :: a.taken, list := c :: a.list }
    else some ⟨q, [], [], []⟩

/-- The front of a process. -/
structure Front where
  /-- `max-connection`, a `uint32_t`, and `thread-pool-size` -/
  max : UInt32
  poolMax : Nat
  /-- the queues of the kernel -/
  queues : Nat → List Nat := fun _ => []
  /-- the rest of `connection_list` -/
  todo : List Nat := []
  /-- a connection between the look at the number of threads and `get` -/
  chosen : Option Nat := none
  /-- threads of the map whose session runs, and threads of the map whose connection is closed already -/
  serving : List Nat := []
  leaving : List Nat := []
  /-- the size of the stack of the pool -/
  pool : Nat := 0
  /-- connections that were served to their end; connections that were closed unserved -/
  ended : List Nat := []
  closed : List Nat := []
  /-- connections that nobody will ever read from or close -/
  stuck : List Nat := []
  /-- `total_connections` -/
  total : Nat := 0
  /-- what was taken from the queues so far (not in the code) -/
  taken : List (Nat × Nat) := []

/-- `get_thread_size(thread_type_request)`, thread_pool.cc:258-266. -/
def Front.size (s : Front) : Nat := s.serving.length + s.leaving.length

inductive FrontAct where
  /-- a client connects -/
  | arrive (listener c : Nat)
  /-- `wait` -/
  | wait (evs : List ReadyEvent)
  /-- the look at the number of threads, flared.cc:338-341 -/
  | check
  /-- `increment_total_connections`, `get`, `trigger`; `created`: whether `pthread_create` succeeds if it is called -/
  | get (created : Bool)
  /-- a session ends: its handler is deleted and with it the connection -/
  | finish (c : Nat)
  /-- its thread leaves the map: `thread_pool::clean` -/
  | clean (c : Nat)
  /-- the configuration is read again -/
  | reload (max : UInt32) (poolMax : Nat)
  deriving Repr

/-- One step.  `index`: the process is `flarei`, which does not look whether the thread could be created: the handler is
then the only one to hold the thread and the thread the only one to hold the handler, flarei.cc:326-328,
/repo/src/lib/thread_handler.h:42. -/
def Front.step (index : Bool) (isUnix : Nat → Bool) (s : Front) : FrontAct → Option Front
  | .arrive l c => some { s with queues := fun l' => if l' = l then s.queues l ++ [c] else s.queues l' }
  | .wait evs =>
    match s.todo, s.chosen with
    | [], none =>
      (acceptAll isUnix s.queues evs).map fun a =>
        { s with queues := a.queues, todo := a.list, closed := s.closed ++ a.closed, taken := s.taken ++ a.taken }
    | _, _ => none
  | .check =>
    match s.todo, s.chosen with
    | c :: cs, none =>
      if s.max.toNat ≤ s.size then some { s with todo := cs, closed := s.closed ++ [c] }
      else some { s with todo := cs, chosen := some c }
    | _, _ => none
  | .get created =>
    match s.chosen with
    | none => none
    | some c =>
      let s := { s with chosen := none, total := s.total + 1 }
      if 0 < s.pool then some { s with pool := s.pool - 1, serving := s.serving ++ [c] }
      else if created then some { s with serving := s.serving ++ [c] }
      else if index then some { s with stuck := s.stuck ++ [c] }
      else some { s with closed := s.closed ++ [c] }
  | .finish c =>
    if c ∈ s.serving then
      some { s with serving := s.serving.erase c, leaving := s.leaving ++ [c], ended := s.ended ++ [c] }
    else none
  | .clean c =>
    if c ∈ s.leaving then
      some { s with leaving := s.leaving.erase c, pool := if s.pool < s.poolMax then s.pool + 1 else s.pool }
    else none
  | .reload m p =>
    match s.chosen with
    | none => some { s with max := m, poolMax := p }
    | some _ => none

def Front.run (index : Bool) (isUnix : Nat → Bool) : Front → List FrontAct → Option Front
  | s, [] => some s
  | s, a :: as =>
    match s.step index isUnix a with
    | none => none
    | some s' => Front.run index isUnix s' as

/-- The limit on descriptors that is asked for, flared.cc:487: `uint32_t` arithmetic. -/
def fdLimit (max : UInt32) : UInt32 := max * 2 + 16

end Flare
