import Verif.Model.Cluster

/-! Model of several index servers that share one stored node map: the commands of
/repo/src/lib/cluster.cc run under the lock of `begin_operation` (`Model/ZkLock`), the watch on the node
map and its handler (`zookeeper_coordinator::setup` and `_handle_nodemap_watch_event`,
/repo/src/lib/zookeeper_coordinator.cc:252-294 and :363-387), and `restore_state` (:172-205).

Simplifications.
* The lock does its work (C68), so a command from `begin_operation` to `end_operation` is one step, and no
  load or save fails.
* Events come in order on each session: when the `zoo_async` of `begin_operation` has been answered, the
  handler of an earlier change has returned.  So a command only runs on a server whose watch is armed.
* A watch reports one change and has to be set again.
* The handler runs in two steps: `_update` loads the map and computes the tables, then `zoo_wexists` sets
  the watch.  A starting server loads the map, and only later sets the handler; a change in between is not
  handled either (:374). -/
namespace Flare

/-- The watch of one index server. -/
inductive WatchPh where
  | armed
  /-- A change has been reported, and the handler has not run yet. -/
  | fired
  /-- The map is loaded, and the watch is not set yet. -/
  | gap
  deriving DecidableEq, Repr

structure IxServer where
  ix : Index
  watch : WatchPh
  deriving DecidableEq, Repr

structure Multi where
  servers : Nat → Option IxServer := fun _ => none
  /-- The stored node map. -/
  saved : Option (Nat × NodeMap × Int) := none
  /-- The commands run so far with their return values. -/
  done : List (ICmd × Int) := []

inductive MEv where
  /-- A server process starts (again). -/
  | boot (i : Nat)
  /-- A command runs on server `i`. -/
  | cmd (i : Nat) (c : ICmd)
  /-- The handler on server `i` runs `_update`. -/
  | tell (i : Nat)
  /-- Server `i` sets its watch again. -/
  | arm (i : Nat)
  deriving DecidableEq, Repr

def IxServer.fire (x : IxServer) : IxServer :=
  match x.watch with
  | .armed => { x with watch := .fired }
  | _ => x

def Multi.put (m : Multi) (i : Nat) (x : IxServer) : Multi :=
  { m with servers := fun j => if j = i then some x else m.servers j }

/-- The stored map changes: every watch that is set reports it. -/
def Multi.write (m : Multi) (q : Option (Nat × NodeMap × Int)) : Multi :=
  if q = m.saved then m
  else { m with saved := q, servers := fun j => (m.servers j).map IxServer.fire }

def mStep (m : Multi) : MEv → Multi
  | .boot i =>
    match startup m.saved with
    | some s => m.put i ⟨s, .gap⟩
    | none => { m with servers := fun j => if j = i then none else m.servers j }
  | .cmd i c =>
    match m.servers i with
    | some ⟨s, .armed⟩ =>
      let r := ixStep {} { s with saved := m.saved } c
      Multi.write { m.put i ⟨r.1, .armed⟩ with done := m.done ++ [(c, r.2)] } r.1.saved
    | _ => m
  | .tell i =>
    match m.servers i with
    | some ⟨s, .fired⟩ => m.put i ⟨update {} { s with saved := m.saved }, .gap⟩
    | _ => m
  | .arm i =>
    match m.servers i with
    | some ⟨s, .gap⟩ => m.put i ⟨s, .armed⟩
    | _ => m

def mRun (m : Multi) (evs : List MEv) : Multi := evs.foldl mStep m

/-- `restore_state`, /repo/src/lib/zookeeper_coordinator.cc:172-205: the first read has a buffer of 8192
bytes; if the state is longer, a second read has a buffer of the length the state had.  `d` and `e` are
the states at the two reads. -/
def zkRestore (d e : Bytes) : Bytes :=
  if d.length ≤ 8192 then d else e.take d.length

end Flare
