import Verif.Model.Rebuild
import Verif.Model.Dump

/-! Model of a cluster that gets one more partition: the masters of the partitions `0 … n-1` go on working, the new master
(partition `n`, state prepare) asks each of them for a dump of its partition, `cluster::_shift_node_role`
(/repo/src/lib/cluster.cc:1544-1580), and gets copies of the writes of the keys that will move,
`cluster::post_proxy_write` (/repo/src/lib/cluster.cc:1443-1447, 1486-1492).

Simplifications.
* A write of a client is executed at the master of its key by the old table (`cluster::pre_proxy_write`, C29); the nodes
  before that only hand it on (C62).
* Slaves are left out; what a master has its slaves have too (C11).
* A master knows of the new partition from the moment at which the map of nodes has reached it (`GrowEv.told`). -/
namespace Flare

/-- The masters: what they hold, and which of them know of the new partition. -/
structure GrowSys where
  stores : Nat → Store
  told : Nat → Bool

inductive GrowEv where
  /-- Something happens at master `i`. -/
  | at (i : Nat) (ev : MEvent)
  /-- The map of nodes with the new partition reaches master `i`. -/
  | told (i : Nat)
  deriving Repr

/-- What master `i` of `n` does with an event: it executes the writes of its own keys, /repo/src/lib/cluster.cc:1382-1394,
and dumps the keys of the new partition, /repo/src/lib/op_dump.cc:184-192. -/
def growTakes (kr : Resolver) (hash : Bytes → Int32) (n i : Nat) : MEvent → Bool
  | .write _ _ r => resolve kr (hash r.entry.key).toInt n == some i
  | .dump _ k => inPartition kr hash n (n + 1) k == some true
  | .read _ _ => true

/-- Whether what a master has to send goes to the new master: records of a dump always, copies if the master knows of the
new partition and the key will be in it, `cluster::_determine_partition` (/repo/src/lib/cluster.cc:2172-2208). -/
def growSends (kr : Resolver) (hash : Bytes → Int32) (n : Nat) (told : Bool) : Sent → Bool
  | .copy c => told && resolve kr (hash c.entry.key).toInt (n + 1) == some n
  | .dump _ => true

def GrowEv.apply (kr : Resolver) (hash : Bytes → Int32) (n : Nat) (g : GrowSys) : GrowEv → GrowSys × List (Nat × Sent)
  | .told i => ({ g with told := fun j => if j = i then true else g.told j }, [])
  | .at i ev =>
    if growTakes kr hash n i ev then
      let (m, x) := ev.apply (g.stores i)
      ({ g with stores := fun j => if j = i then m else g.stores j },
        (x.toList.filter (growSends kr hash n (g.told i))).map (i, ·))
    else (g, [])

/-- The masters after a list of events, and what they have sent to the new one. -/
def growRun (kr : Resolver) (hash : Bytes → Int32) (n : Nat) (g : GrowSys) : List GrowEv → GrowSys × List (Nat × Sent)
  | [] => (g, [])
  | ev :: evs =>
    let (g1, xs) := ev.apply kr hash n g
    let (g2, ys) := growRun kr hash n g1 evs
    (g2, xs ++ ys)

/-- The masters when the new partition has become active: `new` is what the new master holds. -/
def GrowSys.grown (g : GrowSys) (n : Nat) (new : Store) (i : Nat) : Store := if i = n then new else g.stores i

end Flare
