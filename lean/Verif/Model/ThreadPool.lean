/-! Model of the thread pools, /repo/src/lib/thread_pool.cc, and of the ids they give out.

A server has two pools that share one counter, /repo/src/flared/flared.cc:189-191 and
/repo/src/flarei/flarei.cc:248-250.  Each critical section is one step, so that `get` and `clean`
of different threads interleave as they do in the code.

Simplifications.
* `pthread_create` succeeds; when it fails, `get` returns an object that is in no list.
* What a thread does between `get` and `clean` is left out. -/
namespace Flare

structure Pool where
  /-- `_global_map`, as triples of type, id and thread. -/
  map : List (Int × UInt32 × Nat) := []
  /-- `_pool`, top first. -/
  stack : List Nat := []
  /-- Threads inside `get`, between the two critical sections. -/
  held : List Nat := []
  /-- Threads inside `clean`, between the two critical sections. -/
  leaving : List Nat := []

/-- The pools of a server: `false` is the pool for requests, `true` the other one.  Threads are
numbered in the order of their creation. -/
structure Threads where
  counter : UInt64 := 1
  pool : Bool → Pool := fun _ => {}
  fresh : Nat := 0
  /-- `_info.type` and `_id` of every thread object. -/
  own : Nat → Int × UInt32 := fun _ => (0, 0)

def Threads.setPool (s : Threads) (b : Bool) (p : Pool) : Threads :=
  { s with pool := fun b' => if b' = b then p else s.pool b' }

inductive PoolEv where
  /-- `get`, first section: /repo/src/lib/thread_pool.cc:65-81. -/
  | pop
  /-- `get`, one round of the loop: /repo/src/lib/thread_pool.cc:85-107. -/
  | attempt (t : Nat) (ty : Int)
  /-- `clean`, first section: /repo/src/lib/thread_pool.cc:150-167. -/
  | erase (t : Nat)
  /-- `clean`, second section: /repo/src/lib/thread_pool.cc:169-178. -/
  | push (t : Nat)
  /-- `shutdown`: /repo/src/lib/thread_pool.cc:186-211. -/
  | shutdown
  deriving DecidableEq, Repr

def Threads.popStep (s : Threads) (b : Bool) : Threads :=
  match (s.pool b).stack with
  | t :: r => s.setPool b { s.pool b with stack := r, held := t :: (s.pool b).held }
  | [] =>
    { s.setPool b { s.pool b with held := s.fresh :: (s.pool b).held } with
      fresh := s.fresh + 1 }

/-- `incr` returns the old value, which is cut to an `unsigned int`; the loop goes on with the
next value if it is zero or in use in this pool. -/
def Threads.attemptStep (s : Threads) (b : Bool) (t : Nat) (ty : Int) : Threads :=
  if (s.pool b).held.contains t then
    let id := s.counter.toUInt32
    let s := { s with counter := s.counter + 1 }
    if id == 0 || (s.pool b).map.any (fun e => e.2.1 == id) then s
    else
      { s.setPool b { s.pool b with
          map := (ty, id, t) :: (s.pool b).map, held := (s.pool b).held.erase t } with
        own := fun t' => if t' = t then (ty, id) else s.own t' }
  else s

/-- The object looked up is the one registered under the type and id of `t`. -/
def Threads.eraseStep (s : Threads) (b : Bool) (t : Nat) : Threads :=
  let key := fun (e : Int × UInt32 × Nat) => e.1 == (s.own t).1 && e.2.1 == (s.own t).2
  match (s.pool b).map.find? key with
  | none => s
  | some e =>
    { s.setPool b { s.pool b with
        map := (s.pool b).map.eraseP key, leaving := e.2.2 :: (s.pool b).leaving } with
      own := fun t' => if t' = e.2.2 then (0, 0) else s.own t' }

def Threads.pushStep (s : Threads) (max : Nat) (b : Bool) (t : Nat) : Threads :=
  if (s.pool b).leaving.contains t then
    s.setPool b { s.pool b with
      leaving := (s.pool b).leaving.erase t
      stack := if (s.pool b).stack.length < max then t :: (s.pool b).stack
        else (s.pool b).stack }
  else s

def Threads.step (max : Nat) (s : Threads) : Bool × PoolEv → Threads
  | (b, .pop) => s.popStep b
  | (b, .attempt t ty) => s.attemptStep b t ty
  | (b, .erase t) => s.eraseStep b t
  | (b, .push t) => s.pushStep max b t
  | (b, .shutdown) => s.setPool b { s.pool b with map := [], stack := [] }

def Threads.run (max : Nat) (s : Threads) (evs : List (Bool × PoolEv)) : Threads :=
  evs.foldl (Threads.step max) s

/-- `get_active(id, t)`, /repo/src/lib/thread_pool.cc:116-130. -/
def Pool.getActive (p : Pool) (id : UInt32) : Option Nat :=
  (p.map.find? fun e => e.2.1 == id).map fun e => e.2.2

/-- The thread `kill` shuts down, /repo/src/lib/op_kill.cc:97-112. -/
def Threads.killTarget (s : Threads) (id : UInt32) : Option Nat :=
  match (s.pool false).getActive id with
  | some t => some t
  | none => (s.pool true).getActive id

end Flare
