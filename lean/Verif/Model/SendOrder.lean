import Verif.Model.Bytes

/-! Model of the way of replicated writes from execution to sending, for one destination node:
client threads execute a write and enqueue its copy afterwards, sender threads take copies from
their queues.

Simplifications.
* The lists of active senders a client thread sees, which are ordered by thread id, are numbered
  from 0; new senders come last.
* Sending a copy and its execution at the destination are one step: a sender waits for the
  answer before it takes the next copy (/repo/src/lib/queue_proxy_write.cc:75-128).
* Requests that are forwarded to a master go the same way and are not told apart.
* `_get_proxy_thread` divides by zero if there is no sender; here the index is then arbitrary. -/
namespace Flare

/-- A write, as far as its order is concerned: the key and the number of the write. -/
structure Wr where
  key : Bytes
  no : Nat
  deriving DecidableEq, Repr

/-- The sender for a key: `key_hash % m.size()`, /repo/src/lib/cluster.cc:2253.  The `int` is
converted to `size_t` first. -/
def senderIndex (hash : Bytes → Int32) (n : Nat) (k : Bytes) : Nat :=
  ((hash k).toInt % 2 ^ 64).toNat % n

structure SendSt where
  /-- number of senders -/
  senders : Nat
  /-- the queues, /repo/src/lib/thread.h `_thread_queue` -/
  queues : Nat → List Wr := fun _ => []
  /-- client threads between the execution of a write and its `enqueue` -/
  pending : List (Nat × Wr) := []
  /-- the writes in the order of their execution -/
  executed : List Wr := []
  /-- the copies in the order they were sent -/
  sent : List Wr := []

inductive SendEv where
  /-- A client thread executes a write: the storage call of e.g. `op_set::_run_server`,
  /repo/src/lib/op_set.cc:144, has returned and has released the storage locks. -/
  | exec (c : Nat) (w : Wr)
  /-- It enqueues the copy: `post_proxy_write` (/repo/src/lib/op_set.cc:157-161) with
  `thread::enqueue`, /repo/src/lib/thread.cc:441-449. -/
  | enq (c : Nat)
  /-- `enqueue` fails, and the copy is dropped: /repo/src/lib/cluster.cc:1470-1472. -/
  | refuse (c : Nat)
  /-- A sender takes the first copy of its queue (/repo/src/lib/thread.cc:392-398) and sends
  it. -/
  | send (i : Nat)
  /-- A sender takes the first copy and skips it, because the destination is a proxy
  (/repo/src/lib/handler_proxy.cc:97-116), or cannot send it. -/
  | skip (i : Nat)
  /-- The number of senders changes: `_get_proxy_thread` starts some, or one exits. -/
  | senders (n : Nat)
  deriving DecidableEq, Repr

def SendSt.setQueue (s : SendSt) (i : Nat) (q : List Wr) : SendSt :=
  { s with queues := fun j => if j = i then q else s.queues j }

def SendSt.step (hash : Bytes → Int32) (s : SendSt) : SendEv → SendSt
  | .exec c w =>
    if s.pending.any (fun p => p.1 == c) then s
    else { s with pending := s.pending ++ [(c, w)], executed := s.executed ++ [w] }
  | .enq c =>
    match s.pending.find? (fun p => p.1 == c) with
    | none => s
    | some (_, w) =>
      let i := senderIndex hash s.senders w.key
      { s.setQueue i (s.queues i ++ [w]) with
        pending := s.pending.eraseP (fun p => p.1 == c) }
  | .refuse c => { s with pending := s.pending.eraseP (fun p => p.1 == c) }
  | .send i =>
    match s.queues i with
    | [] => s
    | w :: q => { s.setQueue i q with sent := s.sent ++ [w] }
  | .skip i =>
    match s.queues i with
    | [] => s
    | _ :: q => s.setQueue i q
  | .senders n => { s with senders := n }

def SendSt.run (hash : Bytes → Int32) (s : SendSt) (evs : List SendEv) : SendSt :=
  evs.foldl (SendSt.step hash) s

end Flare
