import Verif.Model.Bytes

/-! Model of the lock that several index servers share: `zookeeper_lock`
(/repo/src/lib/zookeeper_lock.cc) and the operations guarded by it,
`zookeeper_coordinator::begin_operation`, `end_operation`, `store_state` and `restore_state`
(/repo/src/lib/zookeeper_coordinator.cc).

ZooKeeper itself is modelled by what its documentation promises:
* changes to the lock directory happen one at a time, and every read shows the directory as it was after
  one of them;
* a client never sees a state older than its own last change, nor goes back in time between two of its
  reads, but what it sees may be out of date;
* the node of a client vanishes when the client's session expires;
* a request whose answer was lost with the connection may be carried out later, or never.

Simplifications.
* The numbers ZooKeeper appends to the names grow from node to node; they may skip, since other changes
  to the directory count as well.  The random prefix of a name stands for the client that made it: two
  clients never draw the same one.
* A client is one lock object with its session.  A lock object dropped after an error is a client that
  does nothing more; the object that replaces it is another client.
* The flag `_is_owner` is what `wait_for_ownership` returns on, so looking again while it is set changes
  nothing and is left out.
* `zoo_async` before each read of the node map makes that read an up to date one. -/
namespace Flare

/-! ### Names -/

/-- The `k` last decimal digits of `n`, highest first. -/
def digitsN : Nat → Nat → List Nat
  | 0, _ => []
  | k + 1, n => n / 10 ^ k % 10 :: digitsN k n

/-- The counter as the signed 32-bit number ZooKeeper keeps it in. -/
def zkSeq (n : Nat) : Int :=
  if n % 2 ^ 32 < 2 ^ 31 then (n % 2 ^ 32 : Nat) else ((n % 2 ^ 32 : Nat) : Int) - (2 ^ 32 : Nat)

/-- What follows the last '-' in a name whose number was printed with "%010d": the sign of a negative
number is lost, /repo/src/lib/zookeeper_lock.cc:320-329. -/
def zkSuffix (n : Nat) : List Nat :=
  if 0 ≤ zkSeq n then digitsN 10 (zkSeq n).toNat
  else if (-zkSeq n).toNat < 10 ^ 9 then digitsN 9 (-zkSeq n).toNat
  else digitsN 10 (-zkSeq n).toNat

/-- `operator<` on strings of digits. -/
def digitsLt : List Nat → List Nat → Bool
  | [], [] => false
  | [], _ :: _ => true
  | _ :: _, [] => false
  | a :: l, b :: m => if a < b then true else if b < a then false else digitsLt l m

/-- A lock node: the number in its name and the client that made it. -/
structure ZNode where
  num : Nat
  who : Nat
  deriving DecidableEq, Repr

/-- `less_than_with_suffix`, /repo/src/lib/zookeeper_lock.cc:320-329. -/
def ZNode.before (a b : ZNode) : Bool := digitsLt (zkSuffix a.num) (zkSuffix b.num)

/-- `nodevector.front()` after the sort; `std::sort` leaves the order of equal suffixes open, and the
model takes the first of them. -/
def zkFront : List ZNode → Option ZNode
  | [] => none
  | a :: l =>
    match zkFront l with
    | none => some a
    | some b => if b.before a then some b else some a

/-- `_child_floor` on the sorted list, /repo/src/lib/zookeeper_lock.cc:350-361: the last of the nodes that
come before `me`. -/
def zkFloor (me : ZNode) : List ZNode → Option ZNode
  | [] => none
  | a :: l =>
    if a.before me then
      match zkFloor me l with
      | none => some a
      | some b => if a.before b then some b else some a
    else zkFloor me l

/-! ### Clients -/

/-- Where a client is in `begin_operation` … `end_operation`. -/
inductive ZPhase (V : Type) where
  | out
  /-- Its node exists; `watch` is the node whose removal will wake it. -/
  | waiting (num : Nat) (watch : Option ZNode)
  /-- It has seen itself at the front; `mine` is the node map it has loaded. -/
  | holding (num : Nat) (mine : Option V)

structure ZClient (V : Type) where
  phase : ZPhase V := .out
  /-- The session has not expired. -/
  alive : Bool := true
  /-- The state of the directory that its own node appeared in. -/
  since : Nat := 0

structure ZkSys (V O : Type) where
  /-- The states of the lock directory so far, oldest first; the last one is the present. -/
  views : List (List ZNode) := [[]]
  next : Nat := 0
  clients : Nat → ZClient V := fun _ => {}
  /-- The stored node map. -/
  data : V
  /-- Writes of the node map that were sent, but whose answer got lost. -/
  flying : List V := []
  /-- The operations reported as done, in order. -/
  acked : List O := []

inductive ZkEv (O : Type) where
  /-- `zoo_create` in `_lock_operation`, /repo/src/lib/zookeeper_lock.cc:396-423; `skip` numbers are
  passed over. -/
  | create (c skip : Nat)
  /-- The second part of `_lock_operation`, /repo/src/lib/zookeeper_lock.cc:424-484, run after the
  creation, after a time-out and after an event; `zoo_get_children` shows state `i` and `zoo_wexists`
  state `j`. -/
  | check (c i j : Nat)
  /-- `restore_state`. -/
  | load (c : Nat)
  /-- `store_state` with success. -/
  | store (c : Nat) (o : O)
  /-- `store_state` when the connection is lost before the answer. -/
  | storeLost (c : Nat) (o : O)
  /-- A write whose answer was lost is carried out. -/
  | land (i : Nat)
  /-- `end_operation`, or any other way to `_unlock_internal`. -/
  | release (c : Nat)
  /-- The session of a client expires. -/
  | expire (c : Nat)

section
variable {V O : Type}

/-- The lock directory at present. -/
def ZkSys.now (s : ZkSys V O) : List ZNode := s.views.getLast?.getD []

/-- The client `c` has the lock, as far as it knows. -/
def ZkSys.holds (s : ZkSys V O) (c : Nat) : Prop := ∃ n m, (s.clients c).phase = .holding n m

def ZkSys.setClient (s : ZkSys V O) (c : Nat) (x : ZClient V) : ZkSys V O :=
  { s with clients := fun d => if d = c then x else s.clients d }

def ZkSys.change (s : ZkSys V O) (l : List ZNode) : ZkSys V O := { s with views := s.views ++ [l] }

/-- What `check` makes of the two states it sees. -/
def zkLook (me : ZNode) (seen later : List ZNode) (w : Option ZNode) : ZPhase V :=
  match zkFloor me seen with
  | none => if zkFront seen = some me then .holding me.num none else .waiting me.num w
  | some p => if p ∈ later then .waiting me.num (some p) else .waiting me.num w

/-- Removing the nodes of a client. -/
def zkDrop (c : Nat) (l : List ZNode) : List ZNode := l.filter fun n => n.who ≠ c

/-- One step. -/
def zkStep (app : O → V → V) (s : ZkSys V O) : ZkEv O → ZkSys V O
  | .create c skip =>
    match (s.clients c).phase, (s.clients c).alive with
    | .out, true =>
      (ZkSys.change { s with next := s.next + skip + 1 } (s.now ++ [⟨s.next + skip, c⟩])).setClient c
        ⟨.waiting (s.next + skip) none, true, s.views.length⟩
    | _, _ => s
  | .check c i j =>
    match (s.clients c).phase, (s.clients c).alive with
    | .waiting n w, true =>
      if (s.clients c).since ≤ i ∧ i ≤ j then
        match s.views[i]?, s.views[j]? with
        | some seen, some later =>
          s.setClient c { s.clients c with phase := zkLook ⟨n, c⟩ seen later w }
        | _, _ => s
      else s
    | _, _ => s
  | .load c =>
    match (s.clients c).phase with
    | .holding n _ => s.setClient c { s.clients c with phase := .holding n (some s.data) }
    | _ => s
  | .store c o =>
    match (s.clients c).phase with
    | .holding n (some v) =>
      ZkSys.setClient { s with data := app o v, acked := s.acked ++ [o] } c
        { s.clients c with phase := .holding n none }
    | _ => s
  | .storeLost c o =>
    match (s.clients c).phase with
    | .holding n (some v) =>
      ZkSys.setClient { s with flying := s.flying ++ [app o v] } c
        { s.clients c with phase := .holding n none }
    | _ => s
  | .land i =>
    match s.flying[i]? with
    | some v => { s with data := v, flying := s.flying.eraseIdx i }
    | none => s
  | .release c =>
    match (s.clients c).phase with
    | .out => s
    | _ => (s.change (zkDrop c s.now)).setClient c { s.clients c with phase := .out }
  | .expire c =>
    (s.change (zkDrop c s.now)).setClient c { s.clients c with alive := false }

def zkRun (app : O → V → V) (s : ZkSys V O) (l : List (ZkEv O)) : ZkSys V O := l.foldl (zkStep app) s

end

end Flare
