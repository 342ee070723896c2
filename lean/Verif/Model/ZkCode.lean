import Verif.Model.ZkLock

/-! The lock that index servers share, statement by statement: `lock`, `wait_for_ownership` and `unlock`
of `zookeeper_lock` (/repo/src/lib/zookeeper_lock.cc) with every call to ZooKeeper as a step of its own,
in the two threads that run them: the thread of the operation (`begin_operation`, `end_operation`,
/repo/src/lib/zookeeper_coordinator.cc:105-162) and the thread of the ZooKeeper library, which calls
`lock(true)` when the node before one's own is gone.

Every call is answered, or its answer is lost with the connection, or it fails for another reason; a
request whose answer is lost may be carried out at once, later, or never.  A read shows a state of the
directory that is not older than what the session has seen, with the names in any order.

Simplifications.
* A prefix is a number, drawn when a node is created under it instead of in `_reset_lock`; no two draws
  are the same.
* Assignments to the fields of the object are atomic.  They are not: `_lock_internal` in
  `wait_for_ownership` runs without `_mutex_lock`.
* A library thread may start `lock(true)` at any time; the code starts it when a watched node is gone.
* The counters of attempts in `_unlock_internal` only matter for what is logged, since its callers call
  it again until it succeeds.
* Whether the parent of the lock nodes exists is read as it is.
* An operation that has failed is dropped, and with it the session of its lock. -/
namespace Flare

/-- What becomes of a call to ZooKeeper. -/
inductive ZAns where
  /-- It is carried out; a read shows state `i`, names in the order of `l`; for a creation `i` numbers
  are passed over. -/
  | ok (i : Nat) (l : List ZNode)
  /-- The connection is lost; the request has been carried out, or may be later. -/
  | lost (done : Bool)
  /-- Another error. -/
  | fail
  deriving Repr

/-- A request that changes the directory. -/
inductive ZReq where
  | create (c pre skip : Nat)
  | delete (n : ZNode)
  deriving DecidableEq, Repr

/-- A position in `_lock_internal`, /repo/src/lib/zookeeper_lock.cc:495-521 and 370-493: the next call to
ZooKeeper, or the next assignment. -/
inductive LkAt where
  /-- `zoo_exists` of the directory, with the number of attempts left. -/
  | parent (r : Nat)
  | mkParent (r : Nat)
  /-- The first `zoo_get_children`. -/
  | list1 (r : Nat)
  /-- `zoo_create`; the names listed before. -/
  | make (old : List ZNode)
  /-- The second `zoo_get_children`; the names listed before. -/
  | list2 (r : Nat) (old : List ZNode)
  /-- `_is_owner = true`. -/
  | own
  /-- `zoo_wexists` of the node before. -/
  | watch (p : ZNode) (r : Nat)
  /-- `_is_owner = false`. -/
  | lose
  /-- `_unlock_internal`, since the node before cannot be watched. -/
  | giveUp
  deriving DecidableEq, Repr

/-- The thread of the operation. -/
inductive LkUser where
  | out
  /-- In `lock()`, with `_mutex_lock`. -/
  | locking (p : LkAt)
  /-- `lock()` has returned 0. -/
  | locked
  /-- In the loop of `wait_for_ownership`. -/
  | waiting
  /-- After a time-out: in `_lock_internal`, without `_mutex_lock`. -/
  | checking (p : LkAt)
  /-- `begin_operation` has returned 0. -/
  | inside
  /-- In `unlock()`, with `_mutex_lock`. -/
  | unlocking
  /-- Dropped after an error. -/
  | failed
  deriving DecidableEq, Repr

/-- A lock object. -/
structure LkObj where
  /-- `_id`. -/
  id : Option ZNode := none
  /-- `_is_owner`. -/
  owner : Bool := false
  /-- `_prefix`, once a node has been created under it. -/
  pre : Option Nat := none
  user : LkUser := .out
  /-- The library thread in `lock(true)`, with `_mutex_lock`. -/
  zk : Option LkAt := none
  /-- `ret` in `wait_for_ownership`. -/
  ret : Bool := true
  /-- The session has not expired. -/
  alive : Bool := true
  /-- The newest state of the directory that the session has seen. -/
  seen : Nat := 0
  /-- The uninitialised result buffer of a failed `zoo_create` has been read,
  /repo/src/lib/zookeeper_lock.cc:405-414. -/
  garbage : Bool := false
  /-- `front()` of an empty vector, /repo/src/lib/zookeeper_lock.cc:436. -/
  nofront : Bool := false

structure LkSys where
  /-- The states of the directory so far, oldest first, each with the next number to be given out. -/
  views : List (Nat × List ZNode) := [(0, [])]
  /-- The directory exists. -/
  dir : Bool := true
  /-- Which object has drawn which prefix. -/
  pres : List Nat := []
  flying : List ZReq := []
  objs : Nat → LkObj := fun _ => {}

def LkSys.last (s : LkSys) : Nat × List ZNode := s.views.getLast?.getD (0, [])

/-- The directory at present. -/
def LkSys.now (s : LkSys) : List ZNode := s.last.2

def LkSys.next (s : LkSys) : Nat := s.last.1

def LkSys.upd (s : LkSys) (c : Nat) (f : LkObj → LkObj) : LkSys :=
  { s with objs := fun d => if d = c then f (s.objs d) else s.objs d }

def LkSys.push (s : LkSys) (v : Nat × List ZNode) : LkSys := { s with views := s.views ++ [v] }

/-- ZooKeeper carries out a request. -/
def LkSys.exec (s : LkSys) : ZReq → LkSys
  | .create c pre skip =>
    if (s.objs c).alive then s.push (s.next + skip + 1, s.now ++ [⟨s.next + skip, pre⟩]) else s
  | .delete n => s.push (s.next, s.now.filter fun x => x ≠ n)

/-- A request whose answer is lost. -/
def LkSys.lose (s : LkSys) (done : Bool) (q : ZReq) : LkSys :=
  if done then s.exec q else { s with flying := s.flying ++ [q] }

/-- Whether state `i` may be shown to the session of `c` as the names `l`. -/
def LkSys.shows (s : LkSys) (c i : Nat) (l : List ZNode) : Bool :=
  (s.objs c).alive && decide ((s.objs c).seen ≤ i) &&
    match s.views[i]? with
    | some v => l.all (fun x => decide (x ∈ v.2)) && v.2.all (fun x => decide (x ∈ l))
    | none => false

/-- `_lookup_node`, /repo/src/lib/zookeeper_lock.cc:275-283. -/
def lkLookup (pre : Option Nat) (l : List ZNode) : Option ZNode := l.find? fun x => pre = some x.who

/-- `_reset_lock`, /repo/src/lib/zookeeper_lock.cc:559-575. -/
def LkObj.reset (o : LkObj) : LkObj := { o with id := none, owner := false, pre := none }

/-- How a call goes on: at the next position, or back to the caller with success or not. -/
inductive LkNext where
  | go (p : LkAt)
  | ret (ok : Bool)

/-- `_unlock_internal` and the loops around it, /repo/src/lib/zookeeper_lock.cc:523-557, 471-474 and
153-157; `none`: once more. -/
def LkSys.unlockCall (s : LkSys) (c : Nat) (a : ZAns) : LkSys × Bool :=
  match (s.objs c).id with
  | none => (s, true)
  | some n =>
    match a with
    | .ok _ _ => if (s.objs c).alive then ((s.exec (.delete n)).upd c LkObj.reset, true) else (s, false)
    | .lost done => (s.lose (done && (s.objs c).alive) (.delete n), false)
    | .fail => (s, false)

/-- After the parent: the beginning of `_lock_operation`. -/
def lkBegin (again : Bool) (o : LkObj) : LkNext :=
  if again && o.id.isNone then .ret true else .go (.list1 2)

/-- The second half of `_lock_operation`, /repo/src/lib/zookeeper_lock.cc:435-484, with the sorted
names. -/
def lkDecide (s : LkSys) (c : Nat) (v : List ZNode) : LkSys × LkNext :=
  match zkFront v with
  | none => (s.upd c fun o => { o with nofront := true }, .ret true)
  | some f =>
    match (s.objs c).id with
    | none => (s, .ret true)
    | some me =>
      match zkFloor me v with
      | none => if f = me then (s, .go .own) else (s, .ret true)
      | some p => (s, .go (.watch p 2))

/-- One step of `_lock_internal`. -/
def LkSys.lockCall (s : LkSys) (c : Nat) (again : Bool) (a : ZAns) : LkAt → LkSys × LkNext
  | .parent r =>
    match a with
    | .ok _ _ =>
      if (s.objs c).alive = false then (s, .go (.parent r))
      else if s.dir then (s, lkBegin again (s.objs c))
      else
        match r with
        | 0 => (s, .ret false)
        | r + 1 => (s, .go (.mkParent r))
    | .lost _ =>
      match r with
      | 0 => (s, .ret false)
      | r + 1 => (s, .go (.parent r))
    | .fail => (s, .ret false)
  | .mkParent r =>
    match a with
    | .ok _ _ =>
      if (s.objs c).alive = false then (s, .go (.mkParent r))
      else if s.dir then (s, .ret false)
      else ({ s with dir := true }, lkBegin again (s.objs c))
    | .lost done =>
      match r with
      | 0 => ({ s with dir := s.dir || (done && (s.objs c).alive) }, .ret false)
      | r + 1 => ({ s with dir := s.dir || (done && (s.objs c).alive) }, .go (.parent r))
    | .fail => (s, .ret false)
  | .list1 r =>
    match a with
    | .ok i l =>
      if s.shows c i l then
        (s.upd c fun o => { o with seen := i, id := lkLookup o.pre l },
          .go (if (lkLookup (s.objs c).pre l).isSome then .list2 2 l else .make l))
      else (s, .go (.list1 r))
    | .lost _ =>
      match r with
      | 0 => (s, .ret false)
      | r + 1 => (s, .go (.list1 r))
    | .fail => (s, .ret false)
  | .make old =>
    let k := (s.objs c).pre.getD s.pres.length
    let t : LkSys := if (s.objs c).pre.isSome then s else
      { s.upd c (fun o => { o with pre := some s.pres.length }) with pres := s.pres ++ [c] }
    match a with
    | .ok skip _ =>
      if (s.objs c).alive then
        ((t.exec (.create c k skip)).upd c fun o =>
          { o with id := some ⟨s.next + skip, k⟩, seen := s.views.length }, .go (.list2 2 old))
      else (s, .go (.make old))
    | .lost done => ((t.lose done (.create c k 0)).upd c fun o => { o with garbage := true }, .ret false)
    | .fail => (s.upd c fun o => { o with garbage := true }, .ret false)
  | .list2 r old =>
    match a with
    | .ok i l =>
      if s.shows c i l then
        lkDecide (s.upd c fun o => { o with seen := i }) c (if l = [] then old else l)
      else (s, .go (.list2 r old))
    | .lost _ =>
      match r with
      | 0 => (s, .ret false)
      | r + 1 => (s, .go (.list2 r old))
    | .fail => (s, .ret false)
  | .own => (s.upd c fun o => { o with owner := true }, .ret true)
  | .watch p r =>
    match a with
    | .ok i l =>
      if s.shows c i l then
        (s.upd c fun o => { o with seen := i }, if p ∈ l then .go .lose else .ret true)
      else (s, .go (.watch p r))
    | .lost _ =>
      match r with
      | 0 => (s, .go .giveUp)
      | r + 1 => (s, .go (.watch p r))
    | .fail => (s, .go .giveUp)
  | .lose => (s.upd c fun o => { o with owner := false }, .ret true)
  | .giveUp =>
    match s.unlockCall c a with
    | (t, true) => (t, .ret true)
    | (t, false) => (t, .go .giveUp)

inductive LkEv where
  /-- `begin_operation` calls `lock()`; `told`: the client knows that its session has expired. -/
  | lock (c : Nat) (told : Bool)
  /-- `begin_operation` calls `wait_for_ownership()`. -/
  | await (c : Nat) (told : Bool)
  /-- The wait times out. -/
  | timeout (c : Nat)
  /-- The waiting thread looks at `_is_owner`. -/
  | wake (c : Nat)
  /-- `end_operation` calls `unlock()`. -/
  | unlock (c : Nat) (told : Bool)
  /-- The library thread calls `lock(true)`. -/
  | fire (c : Nat)
  /-- The next call of the thread of the operation is answered. -/
  | user (c : Nat) (a : ZAns)
  /-- The next call of the library thread is answered. -/
  | zk (c : Nat) (a : ZAns)
  /-- A request whose answer was lost is carried out. -/
  | land (i : Nat)
  /-- The session expires, or is closed. -/
  | expire (c : Nat)
  deriving Repr

/-- Whether the thread of the operation has `_mutex_lock`. -/
def LkUser.locks : LkUser → Bool
  | .locking _ => true
  | .unlocking => true
  | _ => false

def LkSys.setUser (s : LkSys) (c : Nat) (u : LkUser) : LkSys := s.upd c fun o => { o with user := u }

def LkSys.setZk (s : LkSys) (c : Nat) (z : Option LkAt) : LkSys := s.upd c fun o => { o with zk := z }

/-- One step of the thread of the operation. -/
def LkSys.userStep (s : LkSys) (c : Nat) (a : ZAns) : LkSys :=
  match (s.objs c).user with
  | .locking p =>
    match s.lockCall c false a p with
    | (t, .go q) => t.setUser c (.locking q)
    | (t, .ret true) => t.setUser c .locked
    | (t, .ret false) => t.setUser c .failed
  | .checking p =>
    match s.lockCall c false a p with
    | (t, .go q) => t.setUser c (.checking q)
    | (t, .ret b) => (t.setUser c .waiting).upd c fun o => { o with ret := b }
  | .unlocking =>
    match s.unlockCall c a with
    | (t, true) => t.setUser c .out
    | (t, false) => t
  | _ => s

/-- One step of the library thread. -/
def LkSys.zkStep (s : LkSys) (c : Nat) (a : ZAns) : LkSys :=
  match (s.objs c).zk with
  | some p =>
    match s.lockCall c true a p with
    | (t, .go q) => t.setZk c (some q)
    | (t, .ret _) => t.setZk c none
  | none => s

def lkStep (s : LkSys) : LkEv → LkSys
  | .lock c told =>
    match (s.objs c).user, (s.objs c).zk with
    | .out, none =>
      if told && !(s.objs c).alive then s.setUser c .failed else s.setUser c (.locking (.parent 10))
    | _, _ => s
  | .await c told =>
    match (s.objs c).user with
    | .locked =>
      if told && !(s.objs c).alive then s.setUser c .failed
      else s.upd c fun o => { o with user := .waiting, ret := true }
    | _ => s
  | .timeout c =>
    match (s.objs c).user, (s.objs c).owner with
    | .waiting, false => s.setUser c (.checking (.parent 10))
    | _, _ => s
  | .wake c =>
    match (s.objs c).user, (s.objs c).owner with
    | .waiting, true => s.setUser c (if (s.objs c).ret then .inside else .failed)
    | _, _ => s
  | .unlock c told =>
    match (s.objs c).user, (s.objs c).zk with
    | .inside, none =>
      if told && !(s.objs c).alive then s.setUser c .failed else s.setUser c .unlocking
    | _, _ => s
  | .fire c =>
    match (s.objs c).zk, (s.objs c).user.locks with
    | none, false => s.setZk c (some (.parent 10))
    | _, _ => s
  | .user c a => s.userStep c a
  | .zk c a => s.zkStep c a
  | .land i =>
    match s.flying[i]? with
    | some q => { s with flying := s.flying.eraseIdx i }.exec q
    | none => s
  | .expire c =>
    (s.push (s.next, s.now.filter fun x => s.pres[x.who]? ≠ some c)).upd c fun o => { o with alive := false }

def lkRun (s : LkSys) (l : List LkEv) : LkSys := l.foldl lkStep s

/-- `begin_operation` of `c` has returned 0, and `end_operation` has not been called. -/
def LkSys.inside (s : LkSys) (c : Nat) : Prop := (s.objs c).user = .inside

/-- The two threads of an object are not both in `_lock_internal`. -/
def LkSys.apart (s : LkSys) (c : Nat) : Prop :=
  match (s.objs c).user, (s.objs c).zk with
  | .checking _, some _ => False
  | _, _ => True

end Flare
