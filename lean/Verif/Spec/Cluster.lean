import Verif.Model.Cluster

/-!
Vocabulary of the statements about the node map and the partition tables.
-/
namespace Flare

/-! ### What a node map says about a partition -/

/-- The nodes in role master and state active of partition `p`, in key order. -/
def activeMasters (nodes : NodeMap) (p : Int) : NodeMap :=
  nodes.filter fun e => e.2.role = .master && e.2.state = .active && e.2.partition = p

/-- The masters of partition `p` that are still being prepared. -/
def preparingMasters (nodes : NodeMap) (p : Int) : NodeMap :=
  nodes.filter fun e => e.2.role = .master && (e.2.state = .prepare || e.2.state = .ready) &&
    e.2.partition = p

/-- The slaves of partition `p` that are not down, with the balance that counts: zero unless active. -/
def slavesOf (nodes : NodeMap) (p : Int) : List (NodeKey × Int) :=
  (nodes.filter fun e => e.2.role = .slave && e.2.state ≠ .down && e.2.partition = p).map
    fun e => (e.1, if e.2.state = .active then e.2.balance else 0)

/-- Partition `p` exists: it has a master that is active or down. -/
def exists_ (nodes : NodeMap) (p : Int) : Bool :=
  nodes.any fun e => e.2.role = .master && (e.2.state = .active || e.2.state = .down) &&
    e.2.partition = p

/-- Partition `p` is being added: it has a master that is preparing or ready. -/
def preparing (nodes : NodeMap) (p : Int) : Bool :=
  nodes.any fun e => e.2.role = .master && (e.2.state = .prepare || e.2.state = .ready) &&
    e.2.partition = p

/-- The table entry of a partition with masters `ms` and slaves `ss`: every node appears in the balance
list as often as its balance says. -/
def mkPart (near : NodeKey → Bool) (ms : NodeMap) (ss : List (NodeKey × Int)) : Part where
  master := ms.head?.map (·.1)
  masterBalance := (ms.head?.map (·.2.balance)).getD 0
  slaves := ss
  balance := ms.flatMap (fun e => copies e.2.balance e.1) ++ ss.flatMap (fun e => copies e.2 e.1)
  prior := (ms.filter fun e => near e.1).flatMap (fun e => copies e.2.balance e.1) ++
    (ss.filter fun e => near e.1).flatMap (fun e => copies e.2 e.1)
  index := ms.map (·.1) ++ ss.map (·.1)

/-- The tables describe the node map: exactly the existing partitions are in the first, exactly those
being added in the second, and every entry lists the master, the slaves and the balance lists of its
partition. -/
structure Describes (near : NodeKey → Bool) (nodes : NodeMap) (npm nppm : PMap) : Prop where
  main : ∀ p, mfind npm p =
    if exists_ nodes p then some (mkPart near (activeMasters nodes p) (slavesOf nodes p)) else none
  prep : ∀ p, mfind nppm p =
    if preparing nodes p then
      some (mkPart (fun _ => false) (preparingMasters nodes p)
        (if exists_ nodes p then [] else slavesOf nodes p))
    else none
  keys : (npm.map (·.1)).Nodup
  prepKeys : (nppm.map (·.1)).Nodup

/-! ### Consistent node maps -/

/-- A consistent node map with `N` partitions: `f k` is the node with key `k`. -/
structure Good (N : Nat) (f : NodeKey → Option Node) : Prop where
  /-- a proxy has no partition and no balance, and is active or down -/
  proxy : ∀ k n, f k = some n → n.role = .proxy →
    n.partition = -1 ∧ n.balance = 0 ∧ (n.state = .active ∨ n.state = .down)
  /-- a master belongs to one of the partitions, or prepares the next one -/
  master : ∀ k n, f k = some n → n.role = .master → 0 ≤ n.balance ∧ 0 ≤ n.partition ∧
    (n.state = .active ∨ n.state = .down → n.partition < N) ∧
    (n.state = .prepare ∨ n.state = .ready → n.partition = N)
  /-- a slave has a partition with a master, and is not down -/
  slave : ∀ k n, f k = some n → n.role = .slave → 0 ≤ n.balance ∧ n.state ≠ .down ∧
    0 ≤ n.partition ∧ ∃ k' m, f k' = some m ∧ m.role = .master ∧ m.partition = n.partition
  /-- at most one master of a partition is not down -/
  unique : ∀ k n k' n', f k = some n → f k' = some n' → n.role = .master → n'.role = .master →
    n.state ≠ .down → n'.state ≠ .down → n.partition = n'.partition → k = k'
  /-- every partition below `N` has a master, active or down -/
  all : ∀ p : Int, 0 ≤ p → p < N → ∃ k n, f k = some n ∧ n.role = .master ∧ n.partition = p ∧
    (n.state = .active ∨ n.state = .down)

/-! ### Histories of an index server -/

/-- What happens to an index server: a command arrives, the coordinator reports a change, or the server
is restarted (if it comes up again). -/
inductive IAct where
  | cmd (env : IEnv) (c : ICmd)
  | update (env : IEnv)
  | restart
  deriving DecidableEq, Repr

def ixAct (s : Index) : IAct → Index
  | .cmd env c => (ixStep env s c).1
  | .update env => update env s
  | .restart => (startup s.saved).getD s

def ixRun (s : Index) (as : List IAct) : Index := as.foldl ixAct s

/-- Bringing up or removing a master that is down while its partition still has a node that is not down,
but no master: the operation under which the partition is lost (see `C23_partition_lost`). -/
def Loses (nodes : NodeMap) (k : NodeKey) : Prop :=
  ∃ n, mfind nodes k = some n ∧ n.role = .master ∧ n.state = .down ∧
    (∃ k' m, k' ≠ k ∧ mfind nodes k' = some m ∧ m.state ≠ .down ∧ m.partition = n.partition) ∧
    ¬ ∃ k' m, mfind nodes k' = some m ∧ m.role = .master ∧ m.state ≠ .down ∧ m.partition = n.partition

/-- The command is not one that loses a partition. -/
def Safe (nodes : NodeMap) : ICmd → Prop
  | .up k => ¬ Loses nodes k
  | .remove k => ¬ Loses nodes k
  | .state k .active => ¬ Loses nodes k
  | _ => True

/-- An orderly history: only safe commands, and after a failed save a reload or restart comes before the
next command (`fresh`: no failed save is pending). -/
def Orderly : Bool → Index → List IAct → Prop
  | _, _, [] => True
  | fresh, s, a :: as =>
    (match a with
     | .cmd env c => fresh = true ∧ Safe s.nodes c ∧ Orderly env.storeOk (ixAct s a) as
     | .update env => Orderly (fresh || env.loadOk) (ixAct s a) as
     | .restart => Orderly true (ixAct s a) as)

/-- Whether no failed save is pending after a history: what is in memory is what is stored. -/
def freshAfter : Bool → List IAct → Bool
  | fresh, [] => fresh
  | fresh, a :: as =>
    freshAfter (match a with
      | .cmd env _ => env.storeOk
      | .update env => fresh || env.loadOk
      | .restart => true) as

/-- An active slave of partition `p`. -/
def ActiveSlave (nodes : NodeMap) (p : Int) (k : NodeKey) (n : Node) : Prop :=
  mfind nodes k = some n ∧ n.role = .slave ∧ n.state = .active ∧ n.partition = p

end Flare
