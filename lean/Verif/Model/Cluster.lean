import Verif.Model.Bytes

/-!
Model of the index server's node map and partition tables: /repo/src/lib/cluster.h and
/repo/src/lib/cluster.cc.
-/
namespace Flare

/-! ### Maps -/

/-- `std::map::find` on an association list. -/
def mfind {κ α : Type} [DecidableEq κ] : List (κ × α) → κ → Option α
  | [], _ => none
  | (k, v) :: m, x => if k = x then some v else mfind m x

/-- Inserting or overwriting an entry of a `std::map`: the list stays ordered by key. -/
def mset {α : Type} : List (Nat × α) → Nat → α → List (Nat × α)
  | [], x, a => [(x, a)]
  | (k, v) :: m, x, a =>
    if x < k then (x, a) :: (k, v) :: m
    else if x = k then (x, a) :: m
    else (k, v) :: mset m x a

/-- `std::map::erase(key)`. -/
def merase {α : Type} (m : List (Nat × α)) (x : Nat) : List (Nat × α) := m.filter fun e => e.1 ≠ x

/-- Updating or adding an entry of a partition map.  The list keeps its insertion order: the code only
looks partitions up, counts them and takes the largest key. -/
def pset {α : Type} : List (Int × α) → Int → α → List (Int × α)
  | [], x, a => [(x, a)]
  | (k, v) :: m, x, a => if k = x then (k, a) :: m else (k, v) :: pset m x a

/-! ### Nodes -/

/-- `cluster::role`, /repo/src/lib/cluster.h:87-91. -/
inductive Role where
  | master | slave | proxy
  deriving DecidableEq, Repr

/-- `cluster::state`, /repo/src/lib/cluster.h:93-98. -/
inductive NState where
  | active | prepare | down | ready
  deriving DecidableEq, Repr

/-- A node key ("name:port").  The model numbers the keys in their `std::string` order; only equality and
order of keys matter to the code modelled here. -/
abbrev NodeKey := Nat

/-- `cluster::node`, /repo/src/lib/cluster.h:112-134 (without name and port, which the key stands for). -/
structure Node where
  role : Role
  state : NState
  partition : Int
  balance : Int
  threadType : Int
  deriving DecidableEq, Repr

/-- What `std::map::operator[]` inserts for a missing key: all members value-initialised. -/
def Node.zero : Node := ⟨.master, .active, 0, 0, 0⟩

abbrev NodeMap := List (NodeKey × Node)

/-- `cluster::partition`, /repo/src/lib/cluster.h:139-145; `master` is `none` for the empty node key. -/
structure Part where
  master : Option NodeKey
  masterBalance : Int
  slaves : List (NodeKey × Int)
  balance : List NodeKey
  prior : List NodeKey
  index : List NodeKey
  deriving DecidableEq, Repr

def Part.empty : Part := ⟨none, 0, [], [], [], []⟩

abbrev PMap := List (Int × Part)

/-- `operator[]` read access to a partition map. -/
def pget (m : PMap) (p : Int) : Part := (mfind m p).getD Part.empty

/-- `operator[]` on a partition map: creates a missing entry. -/
def ptouch (m : PMap) (p : Int) : PMap := pset m p (pget m p)

/-- `for (i = 0; i < n; i++) v.push_back(k)`. -/
def copies (n : Int) (k : NodeKey) : List NodeKey := List.replicate n.toNat k

/-! ### Partition tables -/

/-- Result of a pass: table, prepare table, and whether `r` is still 0. -/
structure Tables where
  npm : PMap
  nppm : PMap
  ok : Bool
  deriving DecidableEq, Repr

/-- Body of the first loop of `_reconstruct_node_partition` (masters),
/repo/src/lib/cluster.cc:1890-1955.  `near k`: a prior netmask is configured and the node's network
address equals our own. -/
def passMaster (near : NodeKey → Bool) (t : Tables) : NodeKey × Node → Tables
  | (k, n) =>
    if n.role ≠ .master then t
    else
      let t := if n.state = .down then { t with npm := ptouch t.npm n.partition } else t
      if n.state = .down ∧ (pget t.npm n.partition).master = none then t
      else if n.partition < 0 then { t with ok := false }
      else match n.state with
        | .active =>
          let t := { t with npm := ptouch t.npm n.partition }
          let part := pget t.npm n.partition
          if part.master ≠ none then { t with ok := false }
          else
            let part := { part with master := some k, masterBalance := n.balance,
                                    balance := part.balance ++ copies n.balance k,
                                    index := part.index ++ [k],
                                    prior := if near k then part.prior ++ copies n.balance k
                                      else part.prior }
            { t with npm := pset t.npm n.partition part }
        | .down => t
        | _ =>
          let t := { t with nppm := ptouch t.nppm n.partition }
          let part := pget t.nppm n.partition
          if part.master ≠ none then { t with ok := false }
          else
            let part := { part with master := some k, masterBalance := n.balance,
                                    balance := part.balance ++ copies n.balance k,
                                    index := part.index ++ [k] }
            { t with nppm := pset t.nppm n.partition part }

/-- Body of the second loop (slaves), /repo/src/lib/cluster.cc:1957-2010. -/
def passSlave (near : NodeKey → Bool) (t : Tables) : NodeKey × Node → Tables
  | (k, n) =>
    if n.role ≠ .slave ∨ n.state = .down then t
    else if n.partition < 0 then { t with ok := false }
    else
      let b : Int := if n.state = .active then n.balance else 0
      match mfind t.npm n.partition with
      | some part =>
        let part := { part with slaves := part.slaves ++ [(k, b)],
                                balance := part.balance ++ copies b k,
                                index := part.index ++ [k],
                                prior := if near k then part.prior ++ copies b k else part.prior }
        { t with npm := pset t.npm n.partition part }
      | none =>
        match mfind t.nppm n.partition with
        | some part =>
          let part := { part with slaves := part.slaves ++ [(k, b)],
                                  balance := part.balance ++ copies b k,
                                  index := part.index ++ [k] }
          { t with nppm := pset t.nppm n.partition part }
        | none => { t with ok := false }

/-- The consistency check, /repo/src/lib/cluster.cc:2012-2056. -/
def tablesOk (t : Tables) : Bool :=
  let top := t.npm.foldl (fun n e => if n < e.1 then e.1 else n) (0 : Int)
  (t.npm.length = 0 || top + 1 = t.npm.length) && t.nppm.length ≤ 1 &&
    t.nppm.all fun e => e.1 = t.npm.length

/-- `_reconstruct_node_partition`, /repo/src/lib/cluster.cc:1874-2072, as a function of the node map:
`none` when the check fails (nothing is installed, -1 is returned), otherwise the tables to install and
the return value (`ok` for 0). -/
def reconstruct (near : NodeKey → Bool) (nodes : NodeMap) : Option Tables :=
  let t := nodes.foldl (passMaster near) ⟨[], [], true⟩
  let t := nodes.foldl (passSlave near) t
  if tablesOk t then some t else none

/-! ### The index server -/

/-- The index part of `cluster`, /repo/src/lib/cluster.h:180-200: node map, thread type counter, map
version (a 64-bit counter; unbounded here), the two partition tables, and `saved`, what the coordinator's
`restore_state` returns (`none`: no state stored yet). -/
structure Index where
  nodes : NodeMap
  threadType : Int
  version : Nat
  npm : PMap
  nppm : PMap
  saved : Option (Nat × NodeMap × Int)
  deriving DecidableEq, Repr

/-- Constructor values, /repo/src/lib/cluster.cc:64-98, `default_thread_type` of cluster.h:169. -/
def Index.init : Index := ⟨[], 16, 0, [], [], none⟩

/-- Failures of the surroundings during one operation: `begin_operation`, `restore_state` (or the XML
parser) and `store_state`. -/
structure IEnv where
  beginOk : Bool := true
  loadOk : Bool := true
  storeOk : Bool := true
  deriving DecidableEq, Repr

/-- `_load`, /repo/src/lib/cluster.cc:1774-1855, without the monitor threads.  The archive is modelled as
the triple that was stored. -/
def load (env : IEnv) (s : Index) : Index × Bool :=
  if env.loadOk then
    let s := match s.saved with
      | some (v, nm, tt) => { s with version := v, nodes := nm, threadType := tt }
      | none => s
    (s, s.nodes.all fun e => e.2.threadType < s.threadType)
  else (s, false)

/-- `_save`, /repo/src/lib/cluster.cc:1741-1768: the version is incremented first, and stays incremented
when storing fails. -/
def save (env : IEnv) (s : Index) : Index × Bool :=
  let s := { s with version := s.version + 1 }
  if env.storeOk then ({ s with saved := some (s.version, s.nodes, s.threadType) }, true)
  else (s, false)

/-- `_save` and the return value the operations derive from it. -/
def store (env : IEnv) (s : Index) : Index × Int :=
  match save env s with
  | (s, true) => (s, 0)
  | (s, false) => (s, -1)

/-- Installing the result of `_reconstruct_node_partition(false)`; its return value is ignored by the
callers.  The index server has no prior netmask. -/
def install (s : Index) : Index :=
  match reconstruct (fun _ => false) s.nodes with
  | some t => { s with npm := t.npm, nppm := t.nppm }
  | none => s

/-- The end of every operation that changes roles: `_reconstruct_node_partition(false)`, then `_save`. -/
def finish (env : IEnv) (s : Index) : Index × Int := store env (install s)

/-- `_node_map[k]` with insertion of a missing key. -/
def ntouch (m : NodeMap) (k : NodeKey) : NodeMap :=
  match mfind m k with
  | some _ => m
  | none => mset m k Node.zero

def nget (m : NodeMap) (k : NodeKey) : Node := (mfind m k).getD Node.zero

/-- `_node_map[k]` assigned through a reference. -/
def nmodify (m : NodeMap) (k : NodeKey) (f : Node → Node) : NodeMap := mset m k (f (nget m k))

/-- Role, partition and balance of a node reset to those of a proxy. -/
def Node.clear (n : Node) : Node := { n with role := .proxy, partition := -1, balance := 0 }

/-- `begin_operation` and `_load`, common to all operations. -/
def withLoad (env : IEnv) (s : Index) (f : Index → Index × Int) : Index × Int :=
  if env.beginOk then
    match load env s with
    | (s, true) => f s
    | (s, false) => (s, -1)
  else (s, -1)

/-- `add_node`, /repo/src/lib/cluster.cc:404-489. -/
def addNode (env : IEnv) (s : Index) (k : NodeKey) : Index × Int :=
  withLoad env s fun s =>
    match mfind s.nodes k with
    | some n => if n.state = .down then store env s else (s, -1)
    | none =>
      store env { s with nodes := mset s.nodes k ⟨.proxy, .active, -1, 0, s.threadType⟩,
                         threadType := s.threadType + 1 }

/-- The search for a slave to promote, /repo/src/lib/cluster.cc:541-552: the slaves of the table in order;
state is the chosen key with its balance, the sum of balances, and the node map (reading a missing key
inserts it). -/
def pickSlave (nodes : NodeMap) : List (NodeKey × Int) → Option (NodeKey × Int) → Int →
    Option NodeKey × Int × NodeMap
  | [], best, sum => (best.map (·.1), sum, nodes)
  | (k, b) :: rest, best, sum =>
    let nodes := ntouch nodes k
    let best := if (nget nodes k).state = .active then
        match best with
        | none => some (k, b)
        | some (k0, b0) => if b0 < b then some (k, b) else some (k0, b0)
      else best
    pickSlave nodes rest best (sum + b)

/-- Turning the slaves of a preparing partition into proxies, /repo/src/lib/cluster.cc:573-579 and
:907-913. -/
def clearSlaves (nodes : NodeMap) (slaves : List (NodeKey × Int)) : NodeMap :=
  slaves.foldl (fun nodes e => nmodify nodes e.1 fun n => { n.clear with state := .active }) nodes

/-- `down_node`, /repo/src/lib/cluster.cc:494-611. -/
def downNode (env : IEnv) (s : Index) (k : NodeKey) : Index × Int :=
  withLoad env s fun s =>
    match mfind s.nodes k with
    | none => (s, -1)
    | some n =>
      if n.state = .down then (s, 0)
      else
        let (s, preserve) :=
          if n.role = .master then
            match n.state with
            | .active =>
              let s := { s with npm := ptouch s.npm n.partition }
              let part := pget s.npm n.partition
              if part.slaves.length = 0 then (s, true)
              else
                match pickSlave s.nodes part.slaves none 0 with
                | (none, _, nodes) => ({ s with nodes := nodes }, true)
                | (some f, sum, nodes) =>
                  ({ s with nodes := nmodify nodes f fun m =>
                      { m with role := .master,
                               balance := if sum = 0 then m.balance + 1 else m.balance } }, false)
            | _ =>
              let s := { s with nppm := ptouch s.nppm n.partition }
              ({ s with nodes := clearSlaves s.nodes (pget s.nppm n.partition).slaves }, false)
          else (s, false)
        finish env { s with nodes := nmodify s.nodes k fun n =>
          if preserve then { n with state := .down } else { n.clear with state := .down } }

/-- `ready_node`, /repo/src/lib/cluster.cc:625-679. -/
def readyNode (env : IEnv) (s : Index) (k : NodeKey) : Index × Int :=
  withLoad env s fun s =>
    match mfind s.nodes k with
    | none => (s, -1)
    | some n =>
      if n.state ≠ .prepare then (s, -1)
      else finish env { s with nodes := nmodify s.nodes k fun n => { n with state := .ready } }

/-- Some other node of the partition is not down, /repo/src/lib/cluster.cc:727-737 and :811-819. -/
def otherAlive (nodes : NodeMap) (k : NodeKey) (p : Int) : Bool :=
  nodes.any fun e => e.1 ≠ k && e.2.partition = p && e.2.state ≠ .down

/-- `up_node`, /repo/src/lib/cluster.cc:684-769. -/
def upNode (env : IEnv) (s : Index) (k : NodeKey) : Index × Int :=
  withLoad env s fun s =>
    match mfind s.nodes k with
    | none => (s, -1)
    | some n =>
      if n.state = .active then (s, 0)
      else if n.role ≠ .slave ∧ n.state = .prepare then (s, -1)
      else
        let f (n : Node) : Node :=
          if n.state = .ready ∨ (n.role = .slave ∧ n.state = .prepare) then n
          else if n.role = .master then
            if otherAlive s.nodes k n.partition then n.clear else n
          else { n with role := .proxy, partition := -1 }
        finish env { s with nodes := nmodify s.nodes k fun n => { f n with state := .active } }

/-- `remove_node`, /repo/src/lib/cluster.cc:776-857. -/
def removeNode (env : IEnv) (s : Index) (k : NodeKey) : Index × Int :=
  withLoad env s fun s =>
    match mfind s.nodes k with
    | none => (s, -1)
    | some n =>
      if n.state ≠ .down then (s, -1)
      else if n.role = .master ∧ ¬ otherAlive s.nodes k n.partition then (s, -1)
      else finish env { s with nodes := merase s.nodes k }

/-- `_check_node_balance`, /repo/src/lib/cluster.cc:2079-2109 (sums of C++ ints, unbounded here). -/
def checkBalance (nodes : NodeMap) (k : NodeKey) (b : Int) : Bool :=
  match mfind nodes k with
  | none => false
  | some n =>
    let sum := nodes.foldl (fun (a : Int) e =>
      if e.1 = k then a + b else if e.2.partition = n.partition then a + e.2.balance else a) 0
    0 ≤ b && 0 ≤ n.partition && sum ≠ 0

/-- `_check_node_partition`, /repo/src/lib/cluster.cc:2116-2133: `none` for -1, else `preparing`. -/
def checkPartition (nodes : NodeMap) (p : Int) : Option Bool :=
  if p < 0 then none
  else
    (nodes.find? fun e => e.2.role = .master && e.2.state ≠ .down && e.2.partition = p).map
      fun e => e.2.state ≠ .active

/-- `_check_node_partition_for_new`, /repo/src/lib/cluster.cc:2140-2170. -/
def checkPartitionForNew (s : Index) (p : Int) : Option Bool :=
  if s.npm.length < p ∨ p < 0 then none
  else if p = s.npm.length then
    if s.nodes.any fun e => e.2.role = .master && e.2.partition = p then none else some true
  else
    if s.nodes.any fun e => e.2.role = .master && e.2.partition = p && e.2.state ≠ .down then none
    else some false

/-- `set_node_role`, /repo/src/lib/cluster.cc:866-1055.  The branch for a preparing proxy (:961-964) is the
first line: the node becomes active in memory and is then handled as an active one. -/
def setRole (env : IEnv) (s : Index) (k : NodeKey) (role : Role) (balance : Int) (p : Int) :
    Index × Int :=
  withLoad env s fun s =>
    match mfind s.nodes k with
    | none => (s, -1)
    | some n =>
      if n.state = .down then (s, -1)
      else
        let done (s : Index) (f : Node → Node) : Index × Int :=
          finish env { s with nodes := nmodify s.nodes k f }
        let rebalance (s : Index) : Index × Int :=
          if checkBalance s.nodes k balance then done s fun n => { n with balance := balance }
          else (s, -1)
        if n.state = .prepare ∨ n.state = .ready then
          match n.role, role with
          | .master, .master => rebalance s
          | .master, .slave => (s, -1)
          | .master, .proxy =>
            let s := { s with nppm := ptouch s.nppm n.partition }
            done { s with nodes := clearSlaves s.nodes (pget s.nppm n.partition).slaves }
              fun n => { n.clear with state := .active }
          | .slave, .master => (s, -1)
          | .slave, .slave =>
            match checkPartition s.nodes n.partition with
            | some true => rebalance s
            | _ => (s, -1)
          | .slave, .proxy => done s fun n => { n.clear with state := .active }
          | .proxy, _ => setActive { s with nodes := nmodify s.nodes k fun n => { n with state := .active } }
              { n with state := .active } done rebalance
        else setActive s n done rebalance
where
  /-- The block for state active, /repo/src/lib/cluster.cc:967-1036. -/
  setActive (s : Index) (n : Node) (done : Index → (Node → Node) → Index × Int)
      (rebalance : Index → Index × Int) : Index × Int :=
    match n.role, role with
    | .master, .master => rebalance s
    | .master, _ => (s, -1)
    | .slave, .master => (s, -1)
    | .slave, .slave => rebalance s
    | .slave, .proxy =>
      if checkBalance s.nodes k 0 then done s fun n => { n.clear with state := .active } else (s, -1)
    | .proxy, .master =>
      match checkPartitionForNew s p with
      | none => (s, -1)
      | some preparing =>
        if balance ≤ 0 then (s, -1)
        else done s fun n =>
          { n with role := .master, partition := p, balance := balance,
                   state := if preparing ∧ p ≠ 0 then .prepare else .active }
    | .proxy, .slave =>
      match checkPartition s.nodes p with
      | none => (s, -1)
      | some preparing =>
        done s fun n =>
          { n with role := .slave, state := .prepare, partition := p,
                   balance := if preparing then (if balance < 0 then 0 else balance) else 0 }
    | .proxy, .proxy => done s id

/-- `set_node_state`, /repo/src/lib/cluster.cc:1060-1078. -/
def setNodeState (env : IEnv) (s : Index) (k : NodeKey) : NState → Index × Int
  | .prepare => (s, -1)
  | .down => downNode env s k
  | .active => upNode env s k
  | .ready => readyNode env s k

/-- `_update`, /repo/src/lib/cluster.cc:1857-1869, run when the coordinator reports a change. -/
def update (env : IEnv) (s : Index) : Index :=
  match load env s with
  | (s, true) => install s
  | (s, false) => s

/-- `startup_index` of a new process, /repo/src/lib/cluster.cc:196-245: `none` when it fails. -/
def startup (saved : Option (Nat × NodeMap × Int)) : Option Index :=
  match load {} { Index.init with saved := saved } with
  | (s, true) =>
    match reconstruct (fun _ => false) s.nodes with
    | some t => if t.ok then some { s with npm := t.npm, nppm := t.nppm } else none
    | none => none
  | (_, false) => none

/-- The commands an index server executes.  `shutdown_node` is `down`. -/
inductive ICmd where
  | add (k : NodeKey)
  | down (k : NodeKey)
  | ready (k : NodeKey)
  | up (k : NodeKey)
  | remove (k : NodeKey)
  | role (k : NodeKey) (r : Role) (balance : Int) (partition : Int)
  | state (k : NodeKey) (st : NState)
  deriving DecidableEq, Repr

def ixStep (env : IEnv) (s : Index) : ICmd → Index × Int
  | .add k => addNode env s k
  | .down k => downNode env s k
  | .ready k => readyNode env s k
  | .up k => upNode env s k
  | .remove k => removeNode env s k
  | .role k r b p => setRole env s k r b p
  | .state k st => setNodeState env s k st

end Flare
