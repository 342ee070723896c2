import Verif.Model.Fleet
import Verif.Spec.Memory
import Verif.Spec.Routing

namespace Flare

/-! What the clients of a cluster should see: one memory, whichever node they are connected to. -/

/-- The active master of the partition of a key. -/
def homeOf (F : FleetMap) (N : Nat) (nodes : NodeMap) (k : Bytes) : Option NodeKey :=
  (resolve F.kr (F.hash k) N).bind fun p => (activeMasters nodes p).head?.map (·.1)

/-- What the cluster amounts to: every key as it is at the master of its partition. -/
def fleetMemory (F : FleetMap) (N : Nat) (nodes : NodeMap) (f : Fleet) : Memory := fun k =>
  match homeOf F N nodes k with
  | some m => memoryOf (f.node m).store k
  | none => .empty

def FleetAsk.mem : FleetAsk → MemAsk
  | .write r => .write r
  | .read _ k => .read k
  | .clear => .clear

/-- What is seen of a step. -/
inductive FleetSeen where
  /-- a request of client `c`, where it was carried out with what outcome, and how it ended where it arrived -/
  | did (c : Nat) (now : Int64) (a : FleetAsk) (ran : Option (NodeKey × Out)) (d : Option FleetDone)
  | quiet (now : Int64)
  deriving DecidableEq, Repr

def fleetShows (F : FleetMap) (f : Fleet) : FleetEv → List FleetSeen
  | .ask c j a =>
    match fleetAsk F f c j a with
    | .busy => []
    | .went _ ran d => [.did c j.env.now a ran d]
  | .late k c env => if ((f.node k).due c).isSome then [.quiet env.now] else []
  | _ => []

/-- All that happened. -/
def fleetLog (F : FleetMap) : Fleet → List FleetEv → List FleetSeen
  | _, [] => []
  | f, e :: l => fleetShows F f e ++ fleetLog F (fleetStep F f e) l

/-- The same as the clients know it. -/
def FleetSeen.mem : FleetSeen → MemEv
  | .did c now a ran _ => .did c now a.mem (match ran with
    | some (_, o) => a.mem.told o
    | none => .failed)
  | .quiet now => .quiet now

/-- A cluster at rest: all nodes agree on a consistent map with `N` partitions, only masters are read from, and
the names of the nodes can be written into a path. -/
structure Steady (F : FleetMap) (near : NodeKey → NodeKey → Bool) (N : Nat) (nodes : NodeMap) : Prop where
  agree : Agree near N nodes F.views
  some_part : 1 ≤ N
  routable : ∀ k, Routable F.kr N (F.hash k)
  masters_only : ∀ p k n, mfind nodes k = some n → n.role = .slave → n.state = .active → n.partition = p →
    n.balance ≤ 0
  names : ∀ k, PlainPath [F.name k] ∧ (F.name k).length ≤ 4096
  first : F.first.length = 1024
  q : F.q.length = 8192
  w : F.w.length = 8192

/-- Requests of clients: as in `MemAsk.Client`; without a path; that can be written to a connection; a `gat` asks
for an answer; no `flush_all`. -/
def FleetAsk.Client : FleetAsk → Prop
  | .write r => (MemAsk.write r).Client ∧ r.path = [] ∧ Sendable r 8192 ∧ Absolute r.entry.expire ∧
      r.entry.size.toNat + 65536 ≤ intMax ∧ (r.cmd = .gat → r.entry.option &&& optNoreply = 0)
  | .read t k => (t = .get ∨ t = .gets) ∧ PlainKey k 8192
  | .clear => False

def FleetEv.client : FleetEv → Prop
  | .ask _ _ a => a.Client
  | _ => True

/-- The storages do as they should where it matters: no undefined behaviour, values that can be sent, no failure of
a write for which no answer is wanted, nor of a `gat`. -/
def FleetFit (l : List FleetSeen) : Prop :=
  ∀ c now a k o d, .did c now a (some (k, o)) d ∈ l →
    o.rc ≠ .ub ∧ o.e.size.toNat + 16384 ≤ intMax ∧
      ∀ r, a = .write r → a.mem.told o = .failed → r.entry.option &&& optNoreply = 0 ∧ r.cmd ≠ .gat

/-- No write for which no answer is wanted is refused for want of a node. -/
def FleetQuiet (l : List FleetSeen) : Prop :=
  ∀ c now r d, .did c now (.write r) none d ∈ l → r.entry.option &&& optNoreply = 0

/-- The removals of expired records at the masters are harmless when they are made. -/
def FleetEv.harmless (F : FleetMap) (N : Nat) (nodes : NodeMap) (f : Fleet) : FleetEv → Prop
  | .late k c env => (∃ y, homeOf F N nodes y = some k) →
      ∀ e, (f.node k).due c = some e → Harmless env.now (memoryOf (f.node k).store) e
  | _ => True

def FleetHarmless (F : FleetMap) (N : Nat) (nodes : NodeMap) : Fleet → List FleetEv → Prop
  | _, [] => True
  | f, e :: l => e.harmless F N nodes f ∧ FleetHarmless F N nodes (fleetStep F f e) l

/-- A request that leaves the versions going up, as in `MemAsk.Calm`. -/
def FleetEv.calm (K : List Bytes) : FleetEv → Prop
  | .ask _ _ a => a.mem.Calm K
  | _ => True

/-- The node that carries a request out or makes a removal, and the time there. -/
def FleetEv.place (F : FleetMap) (N : Nat) (nodes : NodeMap) : FleetEv → Option (NodeKey × Int64)
  | .ask _ j (.write r) => (homeOf F N nodes r.entry.key).map (·, j.env.now)
  | .ask _ j (.read _ k) => (homeOf F N nodes k).map (·, j.env.now)
  | .late k _ env => some (k, env.now)
  | _ => none

/-- The clock of no node goes back. -/
def Forwards (F : FleetMap) (N : Nat) (nodes : NodeMap) (l : List FleetEv) : Prop :=
  l.Pairwise fun x y => ∀ k t u, x.place F N nodes = some (k, t) → y.place F N nodes = some (k, u) → t ≤ u

/-- Nodes that have nothing, with room in the deletion caches. -/
def emptyFleet (size : Nat) : Fleet := { node := fun _ => { store := { cacheSize := size } } }

/-! ### What the clients read -/

def SReq.fleetAsks : SReq → List FleetAsk
  | .write r => [.write r]
  | .get t ks => ks.map (.read t)
  | .flush _ => [.clear]
  | _ => []

def fleetAskedBy (c : Nat) (l : List FleetSeen) : List FleetAsk :=
  l.filterMap fun
    | .did c' _ a _ _ => if c' = c then some a else none
    | .quiet _ => none

/-- How the requests of a client ended at its node. -/
def fleetDoneBy (c : Nat) (l : List FleetSeen) : List FleetDone :=
  l.filterMap fun
    | .did c' _ _ _ d => if c' = c then d else none
    | .quiet _ => none

/-- The rest of the node, for one session: how its requests end, in order. -/
def fleetBack : Back (List FleetDone) where
  write l r := (l.tail, match l.head? with
    | some (.wrote d) => d
    | _ => .own ⟨.err, none, r.entry⟩)
  read l _ := (l.tail, match l.head? with
    | some (.got a) => a
    | _ => .refused)
  status l := (l, none)
  flush l := (l.tail, l.head? = some (.flushed true))

/-- A reply without the words that say what kind of error it was. -/
def Reply.bare : Reply → Reply
  | .result .serverError _ => .result .serverError []
  | x => x

end Flare
