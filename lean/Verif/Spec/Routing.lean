import Verif.Model.Routing
import Verif.Spec.Cluster

/-!
Vocabulary of the statements about routing.
-/
namespace Flare

/-- The view of a node whose tables were built from a consistent map with `N` partitions. -/
structure GoodView (near : NodeKey → Bool) (N : Nat) (v : View) : Prop where
  sorted : (v.nodes.map (·.1)).Pairwise (· < ·)
  good : Good N (mfind v.nodes)
  tables : Describes near v.nodes v.npm v.nppm

/-- The configuration of the partition table works for `N` partitions and one more, and the hash value is
one the hash functions give for all keys but one in 2^32 (see C17). -/
structure Routable (kr : Resolver) (N : Nat) (h : Int) : Prop where
  hint : 1 ≤ kr.hint
  virt : 1 ≤ kr.virtual_
  size : N + 1 < kr.size
  hash : 0 ≤ h

/-- `k` is the active master of partition `p`. -/
def Leads (nodes : NodeMap) (p : Int) (k : NodeKey) : Prop :=
  ∃ n, mfind nodes k = some n ∧ n.role = .master ∧ n.state = .active ∧ n.partition = p

/-- `k` is a master being prepared. -/
def Prepares (nodes : NodeMap) (k : NodeKey) : Prop :=
  ∃ n, mfind nodes k = some n ∧ n.role = .master ∧ (n.state = .prepare ∨ n.state = .ready)

/-- `k` is a slave of partition `p` that is not down. -/
def Follows (nodes : NodeMap) (p : Int) (k : NodeKey) : Prop :=
  ∃ n, mfind nodes k = some n ∧ n.role = .slave ∧ n.state ≠ .down ∧ n.partition = p

/-- Partition `N` is being prepared and the key will belong to it. -/
def Moving (kr : Resolver) (N : Nat) (nodes : NodeMap) (h : Int) : Prop :=
  (∃ k, Prepares nodes k) ∧ resolve kr h (N + 1) = some N

/-- All nodes have taken over the same consistent map. -/
structure Agree (near : NodeKey → NodeKey → Bool) (N : Nat) (nodes : NodeMap) (views : NodeKey → View) : Prop where
  good : ∀ k, GoodView (near k) N (views k)
  same : ∀ k, (views k).nodes = nodes

/-- `k` is an active master or slave of partition `p` and has balance `b`. -/
def Holds (nodes : NodeMap) (p : Int) (k : NodeKey) (b : Int) : Prop :=
  ∃ n, mfind nodes k = some n ∧ n.role ≠ .proxy ∧ n.state = .active ∧ n.partition = p ∧ n.balance = b

/-- Reads of partition `p` may be sent to `k`. -/
def Readable (nodes : NodeMap) (p : Int) (k : NodeKey) : Prop := ∃ b, 0 < b ∧ Holds nodes p k b

/-- The nodes that execute a write which arrives at `k`, following all copies (`fuel` hops); `views` is what
every node believes, all queues have room, and every storage accepts the write. -/
def spread (kr : Resolver) (views : NodeKey → View) : Nat → NodeKey → RReq → List NodeKey
  | 0, _, _ => []
  | fuel + 1, k, r =>
    match handle kr k (views k) (fun _ => true) true r with
    | none => []
    | some d => (if d.executed then [k] else []) ++ d.sends.flatMap fun x => spread kr views fuel x (r.next k)

/-- A write on its way through the cluster: the nodes it has visited, each with whether it executed the
write there, and where it is now.  Every node may have any view at any time. -/
inductive Trip (kr : Resolver) : List (NodeKey × Bool) → NodeKey → RReq → Prop
  | client (k : NodeKey) (h : Int) : Trip kr [] k { hash := h }
  | hop {l : List (NodeKey × Bool)} {k to : NodeKey} {r : RReq} (v : View) (room : NodeKey → Bool)
      (changed : Bool) (d : Handled) : Trip kr l k r → handle kr k v room changed r = some d →
      to ∈ d.sends → Trip kr (l ++ [(k, d.executed)]) to (r.next k)

/-- `n` hops from request `r` at node `k`, when node `x` keeps the view `views x`. -/
def Hops (kr : Resolver) (views : NodeKey → View) : Nat → NodeKey → RReq → Prop
  | 0, _, _ => True
  | n + 1, k, r => ∃ room changed d to, handle kr k (views k) room changed r = some d ∧ to ∈ d.sends ∧
    Hops kr views n to (r.next k)

end Flare
