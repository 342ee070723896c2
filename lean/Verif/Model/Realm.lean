import Verif.Model.Failover
import Verif.Model.Routing
import Verif.Spec.NodeView

/-! Model of a whole cluster: an index server, the node maps it sends (`queue_node_sync`,
/repo/src/lib/queue_node_sync.cc:39-67), nodes that take them over at different times (`reconstruct_node`,
/repo/src/lib/cluster.cc:1099-1180), take themselves for masters according to them (`pre_proxy_write`,
/repo/src/lib/cluster.cc:1366-1417), execute writes and send copies (`post_proxy_write`,
/repo/src/lib/cluster.cc:1422-1495), and stop.  It puts `Verif.Model.Cluster`, `Verif.Model.NodeView`,
`Verif.Model.Routing` and `Verif.Model.Failover` together.

Simplifications.
* Requests are about keys with the hash of one key; requests about other keys go to other nodes, or to the same ones, and
  leave the records of this key alone.
* A request at a node that is not the master is forwarded (C29); what matters is when it is executed at the master, which treats
  it like a client's, unless it has passed the master twice already (C30, C31).
* A node that has stopped does not come back under its name. -/
namespace Flare

/-- What does not change: the table of the partitions, the hash function, which nodes are in the network of a node, whether
copies are waited for, and the key. -/
structure RealmCfg where
  kr : Resolver
  hash : Bytes → Int
  near : NodeKey → NodeKey → Bool
  rep : Bool
  key : Bytes

/-- Whether a node takes itself for the master of the key, and the nodes it then sends copies to:
/repo/src/lib/cluster.cc:1366-1417, :1422-1495, for a client's request. -/
def takesFor (kr : Resolver) (h : Int) (me : NodeKey) (v : View) : Option (List NodeKey) :=
  if preWrite kr me v (fun _ => true) { hash := h } = .execute then
    postWrite kr me v (fun _ => true) { hash := h }
  else none

structure Realm where
  /-- What has happened to the index server. -/
  acts : List IAct := []
  /-- The messages a node has received. -/
  got : NodeKey → List NodeMsg := fun _ => []
  /-- The nodes that have stopped. -/
  dead : NodeKey → Bool := fun _ => false
  /-- The node that executed a write. -/
  who : Nat → NodeKey := fun _ => 0
  g : Group

inductive REv where
  /-- The index server does something. -/
  | act (a : IAct)
  /-- Node `i` receives message number `n` of those sent so far: in any order, again, or never. -/
  | deliver (i : NodeKey) (n : Nat)
  /-- Node `i` stops for good. -/
  | crash (i : NodeKey)
  /-- Something happens among the nodes. -/
  | data (ev : GEv)
  deriving Repr

def Realm.view (C : RealmCfg) (s : Realm) (i : NodeKey) : View := receiveAll (C.near i) i .init (s.got i)

def Realm.role (C : RealmCfg) (s : Realm) (i : NodeKey) : Option (List NodeKey) :=
  if s.dead i then none else takesFor C.kr (C.hash C.key) i (s.view C i)

/-- Whether it can happen: a node that has stopped does nothing, its clients are not answered, and a write is executed by a node
that takes itself for the master. -/
def GEv.possible (C : RealmCfg) (s : Realm) : GEv → Bool
  | .write i _ _ r _ => (s.g.slaves i).isSome && C.hash r.entry.key == C.hash C.key
  | .arrive f _ | .again f _ => (s.g.flying[f]?).all fun x => !s.dead x.dest
  | .lose _ | .drop _ => true
  | .answer a => (s.g.open_[a]?).all fun p => !s.dead (s.who p.1)
  | .read i _ _ => !s.dead i
  | .role _ _ => false
  | .dump i _ _ _ => !s.dead i
  | .put d _ => (s.g.dumps[d]?).all fun p => !s.dead p.1

/-- What changes among the nodes. -/
def REv.group (C : RealmCfg) (s : Realm) : REv → List GEv
  | .act _ => []
  | .deliver i n =>
    match (sent .init s.acts)[n]? with
    | none => []
    | some m =>
      let l := { s with got := fun j => if j = i then s.got j ++ [m] else s.got j }.role C i
      if l = s.g.slaves i then [] else [.role i l]
  | .crash i => if s.g.slaves i = none then [] else [.role i none]
  | .data ev => if ev.possible C s then [ev] else []

def rStep (C : RealmCfg) (s : Realm) (ev : REv) : Realm :=
  let s' : Realm :=
    match ev with
    | .act a => { s with acts := s.acts ++ [a] }
    | .deliver i n =>
      match (sent .init s.acts)[n]? with
      | none => s
      | some m => { s with got := fun j => if j = i then s.got j ++ [m] else s.got j }
    | .crash i => { s with dead := fun j => if j = i then true else s.dead j }
    | .data (.write i _ _ _ _) => { s with who := fun n => if n = s.g.next then i else s.who n }
    | .data _ => s
  { s' with g := gRun C.rep s.g (ev.group C s) }

def rRun (C : RealmCfg) (s : Realm) (evs : List REv) : Realm := evs.foldl (rStep C) s

/-- All that changes among the nodes, one after the other. -/
def rTrace (C : RealmCfg) : Realm → List REv → List GEv
  | _, [] => []
  | s, ev :: evs => ev.group C s ++ rTrace C (rStep C s ev) evs

end Flare
