import Verif.Model.Cluster

/-!
The node side of the cluster: how a storage node takes over a node map sent by an index server, and which
reconstructions it starts.
-/
namespace Flare

/-- The part of `cluster` a node uses: node map, partition tables and map version. -/
structure View where
  nodes : NodeMap
  npm : PMap
  nppm : PMap
  version : Nat
  deriving DecidableEq, Repr

/-- /repo/src/lib/cluster.cc:64-98. -/
def View.init : View := ⟨[], [], [], 0⟩

/-- What `node_sync` carries: the entries in the order of the message, and the map version. -/
structure NodeMsg where
  nodes : List (NodeKey × Node)
  version : Nat
  deriving DecidableEq, Repr

/-- What a role change starts: a reconstruction thread for `partition` out of `size` partitions, copying
from `source` (`none`: the empty node key), or a request to become a proxy. -/
inductive Job where
  | copy (source : Option NodeKey) (partition : Int) (size : Nat) (role : Role)
  | deactivate
  deriving DecidableEq, Repr

/-- `node_shift_role` of /repo/src/lib/cluster.h:155-161, without the old partition, which nothing uses. -/
structure Shift where
  key : NodeKey
  oldRole : Role
  newRole : Role
  newPartition : Int
  deriving DecidableEq, Repr

/-- `_shift_node_role`, /repo/src/lib/cluster.cc:1528-1604; `me` is the own node key. -/
def shiftRole (me : NodeKey) (s : View) (x : Shift) : List Job :=
  if x.key ≠ me ∨ x.newRole = .proxy ∨ x.oldRole ≠ .proxy then []
  else if x.newRole = .master then
    (s.nodes.filter fun e => !(e.1 = x.key || e.2.role ≠ .master || e.2.state ≠ .active)).map fun e =>
      .copy (some e.1) x.newPartition (s.npm.length + s.nppm.length) .master
  else
    match mfind s.npm x.newPartition with
    | some part => [.copy part.master x.newPartition s.npm.length .slave]
    | none =>
      match mfind s.nppm x.newPartition with
      | some part => [.copy part.master x.newPartition (s.npm.length + s.nppm.length) .slave]
      | none => [.deactivate]

/-- The loop over the received entries, /repo/src/lib/cluster.cc:1118-1153: the old map without the
entries already seen, the new map, and the stack of role changes (top first). -/
def takeEntry (a : NodeMap × NodeMap × List Shift) (e : NodeKey × Node) : NodeMap × NodeMap × List Shift :=
  let (old, nm, shifts) := a
  match mfind old e.1 with
  | none => (old, mset nm e.1 e.2, shifts)
  | some o =>
    (merase old e.1, mset nm e.1 e.2,
      if e.2.role ≠ o.role ∨ e.2.partition ≠ o.partition then
        ⟨e.1, o.role, e.2.role, e.2.partition⟩ :: shifts
      else shifts)

/-- Installing the tables; when `_reconstruct_node_partition` gives up, the old tables stay. -/
def View.install (near : NodeKey → Bool) (s : View) : View :=
  match reconstruct near s.nodes with
  | some t => { s with npm := t.npm, nppm := t.nppm }
  | none => s

/-- `reconstruct_node`, /repo/src/lib/cluster.cc:1099-1180, on a node (`type_node`).  State changes of
nodes are only logged (`_shift_node_state`, :1511-1521) and are left out.  The third component is what
`_shift_node_role` starts, in order. -/
def receive (near : NodeKey → Bool) (me : NodeKey) (s : View) (m : NodeMsg) : View × Int × List Job :=
  if s.version > 0 ∧ s.version > m.version then (s, -1, [])
  else
    let (_, nm, shifts) := m.nodes.foldl takeEntry (s.nodes, [], [])
    let s' := View.install near { s with nodes := nm }
    ({ s' with version := m.version }, 0, shifts.flatMap (shiftRole me s'))

/-- All messages a node receives, one after the other. -/
def receiveAll (near : NodeKey → Bool) (me : NodeKey) (s : View) (ms : List NodeMsg) : View :=
  ms.foldl (fun s m => (receive near me s m).1) s

end Flare
