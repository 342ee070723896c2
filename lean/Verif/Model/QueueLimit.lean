/-! Model of the limit on entries that wait to be sent: `thread::enqueue`, `dequeue`, `clean` and the destructor,
/repo/src/lib/thread.cc:122-134, 286-301, 386-430 and 434-458, with the counter `_total_thread_queue`,
/repo/src/lib/stats.h:98-99, and its use with `max-total-thread-queue`, /repo/src/lib/cluster.cc:1607-1626.

Every queue has its own lock; the counter is one for all of them.  So the look at the counter, the change of the queue and
the change of the counter are steps of their own, and only calls for the same queue exclude each other.

Simplifications.
* Of an entry nothing but that it is there.  Who waits in `dequeue` is not followed (C45).
* `clean` and the destructor take all entries of a queue one by one; here others may come between them.
* The counter is 64 bits wide and does not wrap; `get_total_thread_queue` gives its low 32 bits. -/
namespace Flare

/-- What the holder of the lock of a queue has done. -/
inductive QueuePhase where
  | free
  /-- it has read `size` under the limit `max`, thread.cc:442-444 -/
  | looked (size max : Nat)
  /-- it has pushed and not yet counted, thread.cc:446 -/
  | pushed
  /-- it has taken one and not yet counted, thread.cc:131, 296, 394, 420 -/
  | popped
  deriving DecidableEq, Repr

structure OneQueue where
  len : Nat := 0
  phase : QueuePhase := .free
  deriving DecidableEq, Repr

structure Queues where
  queues : List OneQueue
  counter : Nat := 0
  /-- calls that were refused -/
  refused : Nat := 0
  deriving Repr

inductive QueueAct where
  /-- `enqueue` takes the lock of queue `i` and reads the counter; `max = 0` is no limit (and it is not read) -/
  | look (i max : Nat)
  /-- it decides and pushes, thread.cc:445-446 -/
  | push (i : Nat)
  /-- `increment_total_thread_queue` and the end of the lock, thread.cc:447-449 -/
  | count (i : Nat)
  /-- an entry is taken from queue `i` -/
  | pop (i : Nat)
  /-- `decrement_total_thread_queue` and the end of the lock -/
  | uncount (i : Nat)
  deriving Repr

/-- The decision, thread.cc:445. -/
def mayPush (size max : Nat) : Bool := max = 0 || size < max

def Queues.step (s : Queues) : QueueAct → Option Queues
  | .look i max =>
    match s.queues[i]? with
    | some ⟨n, .free⟩ =>
      some { s with queues := s.queues.set i ⟨n, .looked (if 0 < max then s.counter % 4294967296 else 0) max⟩ }
    | _ => none
  | .push i =>
    match s.queues[i]? with
    | some ⟨n, .looked size max⟩ =>
      if mayPush size max then some { s with queues := s.queues.set i ⟨n + 1, .pushed⟩ }
      else some { s with queues := s.queues.set i ⟨n, .free⟩, refused := s.refused + 1 }
    | _ => none
  | .count i =>
    match s.queues[i]? with
    | some ⟨n, .pushed⟩ => some { s with queues := s.queues.set i ⟨n, .free⟩, counter := s.counter + 1 }
    | _ => none
  | .pop i =>
    match s.queues[i]? with
    | some ⟨n + 1, .free⟩ => some { s with queues := s.queues.set i ⟨n, .popped⟩ }
    | _ => none
  | .uncount i =>
    match s.queues[i]? with
    | some ⟨n, .popped⟩ => some { s with queues := s.queues.set i ⟨n, .free⟩, counter := s.counter - 1 }
    | _ => none

def Queues.run : Queues → List QueueAct → Option Queues
  | s, [] => some s
  | s, a :: as =>
    match s.step a with
    | none => none
    | some s' => Queues.run s' as

end Flare
