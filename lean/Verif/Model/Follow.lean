import Verif.Model.Bytes

/-! Model of how one index server follows the node map that several of them store together: its
session, the flush of `begin_operation`, and the watch on the node map,
/repo/src/lib/zookeeper_coordinator.cc:105-149 (`begin_operation`), :164-170 (`store_state`), :172-205
(`restore_state`), :252-294 (`setup`), :328-361, :363-387, :389-395 and :415-420 (the handlers), with
`cluster::_update`, /repo/src/lib/cluster.cc:1857-1869.

ZooKeeper is modelled by what its documentation and its C client promise:
* the stored node map has one version after the other; a session sees them in order, and what it sees may
  be out of date;
* a `zoo_async` that is answered without error makes the session see what was stored when it was asked;
* a watch reports the next change the session sees, once;
* when the session has expired every call on its handle fails;
* the completion of a call that failed is given no string but a null pointer.

Simplifications.
* A node map is the number of changes that led to it; the changes of the other servers are `change`.  The
  lock does its work (C68), so nobody else stores while this server has it.
* The lock has a session of its own (/repo/src/lib/zookeeper_lock.cc) and is always got and given back
  here; C68 and C87 are about it.
* The watch of `setup` and the first load of `startup_index` are the initial state: the window between
  them is in `Model/MultiIndex`.
* An answer to `zoo_set` that is lost is in `Model/ZkLock`; here it is given or the call fails.
* `_handle_global_watch_event` closes the handle when the session has expired (:353-359), if it gets
  that far: events of type -1 are dropped first (:330-332), and that is the number of the session events.
  Either way the handle is of no use from then on, and no other one is made. -/
namespace Flare

inductive FWatch where
  | armed
  /-- A change has been reported, and the handler has not run yet. -/
  | fired
  /-- `_update` is done, and the watch is not set yet. -/
  | gap
  /-- Setting the watch failed. -/
  | lost
  deriving DecidableEq, Repr

/-- Where the operation of this server is. -/
inductive FOp where
  | idle
  /-- It has the lock, and the flush is not asked for yet. -/
  | owner
  /-- It waits for the flush. -/
  | flushing
  | flushed
  /-- The map is loaded, and not stored yet. -/
  | loaded
  /-- A null pointer was made into a string: undefined behaviour (the C++ library at hand ends the
  process). -/
  | broken
  deriving DecidableEq, Repr

structure Follow where
  /-- The stored node map. -/
  now : Nat
  /-- What the session of this server sees. -/
  view : Nat
  /-- The node map in the memory of this server. -/
  mem : Nat
  /-- The map in memory has a change that was not stored. -/
  dirty : Bool := false
  watch : FWatch := .armed
  session : Bool := true
  op : FOp := .idle
  /-- The results of the operations begun here. -/
  results : List Bool := []
  deriving DecidableEq, Repr

inductive FEv where
  /-- Another server changes the stored map. -/
  | change
  /-- The session gets to see the next map. -/
  | see
  /-- The handler runs `_update`; the flag says whether the load works. -/
  | tell (ok : Bool)
  /-- The handler sets the watch again. -/
  | arm (ok : Bool)
  /-- `begin_operation` gets the lock. -/
  | begin
  /-- `zoo_async` is called. -/
  | flush (ok : Bool)
  /-- The completion of `zoo_async` is called. -/
  | flushed (ok : Bool)
  /-- `_load`. -/
  | load (ok : Bool)
  /-- `_save` and the end of the operation. -/
  | save (ok : Bool)
  | expire
  deriving DecidableEq, Repr

def FWatch.fire : FWatch → FWatch
  | .armed => .fired
  | w => w

/-- Whether this server has the lock. -/
def FOp.holds : FOp → Bool
  | .idle | .broken => false
  | _ => true

/-- The operation ends with an error, /repo/src/lib/zookeeper_coordinator.cc:128-138 and
/repo/src/lib/cluster.cc:465-469. -/
def Follow.fail (s : Follow) : Follow := { s with op := .idle, results := s.results ++ [false] }

def Follow.step (s : Follow) : FEv → Follow
  | .change => if s.op.holds then s else { s with now := s.now + 1 }
  | .see =>
    if s.session ∧ s.view < s.now then { s with view := s.view + 1, watch := s.watch.fire } else s
  | .tell ok =>
    -- `_update` waits for the lock on the node map, which an operation has from `_load` to `_save`
    if s.session ∧ s.watch = .fired ∧ s.op ≠ .loaded then
      { s with mem := if ok then s.view else s.mem, dirty := s.dirty && !ok, watch := .gap }
    else s
  | .arm ok =>
    if s.watch = .gap then { s with watch := if s.session ∧ ok then .armed else .lost } else s
  | .begin => if s.op = .idle then { s with op := .owner } else s
  | .flush ok =>
    if s.op = .owner then if s.session ∧ ok then { s with op := .flushing } else s.fail else s
  | .flushed ok =>
    if s.op = .flushing then
      if s.session ∧ ok then
        { s with op := .flushed, view := s.now, watch := if s.view < s.now then s.watch.fire else s.watch }
      else { s with op := .broken }
    else s
  | .load ok =>
    if s.op = .flushed then
      if s.session ∧ ok then { s with op := .loaded, mem := s.view, dirty := false } else s.fail
    else s
  | .save ok =>
    if s.op = .loaded then
      if s.session ∧ ok then
        { s with op := .idle, now := s.now + 1, view := s.now + 1, mem := s.now + 1,
                 watch := s.watch.fire, results := s.results ++ [true] }
      else { s.fail with dirty := true }
    else s
  | .expire =>
    -- a call on its way is completed with an error
    { s with session := false, op := if s.op = .flushing then .broken else s.op }

def Follow.run (s : Follow) (evs : List FEv) : Follow := evs.foldl Follow.step s

/-! ### Making the node of this server -/

/-- One answer to the `zoo_create` of `setup`; `lost done`: the connection was lost, and the request was
carried out or not. -/
inductive CreateAns where
  | answered
  | lost (done : Bool)
  deriving DecidableEq, Repr

/-- The loop of `setup` that makes the ephemeral node of this server,
/repo/src/lib/zookeeper_coordinator.cc:258-272: `there` says whether a node of this name is there, the
number is what is left of the tries (`default_retry_count`, 10).  The result says whether `setup` goes
on, and whether the node is there.  When the answers run out the loop goes on waiting (`none`). -/
def createNode : Nat → Bool → List CreateAns → Option (Bool × Bool)
  | 0, there, _ => some (false, there)
  | _ + 1, _, [] => none
  | _ + 1, there, .answered :: _ => if there then some (false, true) else some (true, true)
  | n + 1, there, .lost done :: l => createNode n (there || done) l

end Flare
