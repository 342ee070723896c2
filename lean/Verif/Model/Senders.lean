import Verif.Model.SendOrder

/-! Model of the choice of the thread that sends requests and copies to another node:
`_get_proxy_thread` and `_enqueue`, /repo/src/lib/cluster.cc:1606-1625, 2228-2265, with `get`,
`get_active` and `clean` of the pool, /repo/src/lib/thread_pool.cc:60-200, and `trigger`, `run` and
`enqueue` of the thread, /repo/src/lib/thread.cc:218-275, 434-466.

One destination is followed.  The threads that serve clients and the senders take turns in any order;
every access to the map of active threads, and every look at `_running`, is one step.

Simplifications.
* The map of active threads is ordered by id, and ids go up: a new thread comes last (ids that have
  wrapped around are in C44).
* A thread can be created, and the pool has one or creates one (C75).
* The destination is in the node map (otherwise nothing is chosen and the request is refused).
* The limit on entries that wait (C83) is not reached.
* A thread that has stopped does not start again under the same id. -/
namespace Flare

/-- An active sender: its id, and `_running`. -/
structure SendThread where
  id : Nat
  running : Bool := false
  deriving DecidableEq, Repr

/-- Where a thread that serves a client is. -/
inductive CallAt where
  | idle
  /-- In the loop, before the next `get`, with `need` senders still to be started; with 0, before the
  second `get_active`. -/
  | short (hash : Int32) (need : Nat)
  /-- In `trigger`, waiting for the start of the sender it has made; `need` more are to follow. -/
  | starting (hash : Int32) (id need : Nat)
  /-- A sender has been chosen. -/
  | chosen (id : Nat)
  deriving DecidableEq, Repr

structure SendersSt where
  senders : List SendThread := []
  next : Nat := 0
  /-- The threads that serve clients, by number. -/
  calls : Nat → CallAt := fun _ => .idle
  /-- Entries taken: the caller and the sender. -/
  taken : List (Nat × Nat) := []
  /-- Entries refused. -/
  refused : List (Nat × Nat) := []
  /-- A division by zero has ended the process. -/
  crashed : Bool := false

def SendersSt.put (s : SendersSt) (c : Nat) (a : CallAt) : SendersSt :=
  { s with calls := fun d => if d = c then a else s.calls d }

/-- `get`: a thread comes into the map, behind the others. -/
def SendersSt.add (s : SendersSt) : SendersSt :=
  { s with senders := s.senders ++ [{ id := s.next }], next := s.next + 1 }

/-- `enqueue` looks at `_running`, /repo/src/lib/thread.cc:436-449. -/
def SendersSt.runs (s : SendersSt) (id : Nat) : Bool := s.senders.any (fun t => t.id == id && t.running)

/-- `key_hash % m.size()` as in `senderIndex`. -/
def hashIndex (h : Int32) (n : Nat) : Nat := (h.toInt % 2 ^ 64).toNat % n

/-- The choice among the active senders, /repo/src/lib/cluster.cc:2253-2262. -/
def SendersSt.pick (s : SendersSt) (c : Nat) (h : Int32) : SendersSt :=
  match s.senders[hashIndex h s.senders.length]? with
  | none => { s with crashed := true }
  | some t => s.put c (.chosen t.id)

inductive SendersAct where
  /-- `_get_proxy_thread` up to the first `get_active`, cluster.cc:2239-2240; where there are enough
  senders the choice follows on the same list. -/
  | call (c : Nat) (hash : Int32)
  /-- `get`: a thread is put into the map, :2243. -/
  | make (c : Nat)
  /-- A thread made before sets `_running`, thread.cc:253-256. -/
  | start (id : Nat)
  /-- `trigger` returns, thread.cc:232-238. -/
  | seen (c : Nat)
  /-- The second `get_active`, cluster.cc:2250. -/
  | again (c : Nat)
  /-- `enqueue`, thread.cc:436-449. -/
  | enq (c : Nat)
  /-- A sender resets `_running`, thread.cc:262-264. -/
  | stop (id : Nat)
  /-- It is taken from the map, thread_pool.cc:156-165. -/
  | gone (id : Nat)
  deriving DecidableEq, Repr

/-- One step; `conc` is `_proxy_concurrency`.  `none`: not possible here. -/
def SendersSt.step (conc : Int) (s : SendersSt) : SendersAct → Option SendersSt
  | .call c h =>
    match s.calls c with
    | .idle =>
      if (s.senders.length : Int) < conc then
        some (s.put c (.short h (conc - s.senders.length).toNat))
      else some (s.pick c h)
    | _ => none
  | .make c =>
    match s.calls c with
    | .short h (need + 1) =>
      some (s.add.put c (.starting h s.next need))
    | _ => none
  | .start id =>
    some { s with senders := s.senders.map (fun t => if t.id = id then { t with running := true } else t) }
  | .seen c =>
    match s.calls c with
    | .starting h id need =>
      if s.runs id then some (s.put c (.short h need)) else none
    | _ => none
  | .again c =>
    match s.calls c with
    | .short h 0 => some (s.pick c h)
    | _ => none
  | .enq c =>
    match s.calls c with
    | .chosen id =>
      if s.runs id then
        some (({ s with taken := s.taken ++ [(c, id)] } : SendersSt).put c .idle)
      else some (({ s with refused := s.refused ++ [(c, id)] } : SendersSt).put c .idle)
    | _ => none
  | .stop id =>
    some { s with senders := s.senders.map (fun t => if t.id = id then { t with running := false } else t) }
  | .gone id =>
    some { s with senders := s.senders.filter (fun t => t.id != id) }

/-- Nothing happens after the end of the process. -/
def SendersSt.run (conc : Int) : SendersSt → List SendersAct → Option SendersSt
  | s, [] => some s
  | s, a :: as =>
    if s.crashed then some s
    else match s.step conc a with
      | none => none
      | some s => SendersSt.run conc s as

end Flare
