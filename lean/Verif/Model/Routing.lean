import Verif.Model.NodeView
import Verif.Model.KeyResolver

/-!
Where a node sends reads and writes: `_determine_partition`, `pre_proxy_read`, `pre_proxy_write` and
`post_proxy_write` of /repo/src/lib/cluster.cc:1305-1495 and :2172-2210.

Simplifications: the proxy event listeners (cluster replication, `Model/ClusterReplication`) let the request
pass, and MySQL replication is off.  The tables do not change between the two calls of
`_determine_partition`.  A request is reduced to the hash of its key and the path it took.
-/
namespace Flare

/-- A write request on its way: hash of its key, whether it came with a path (`is_proxy_request()`,
/repo/src/lib/op.cc:93-100) and the path, oldest node first (`get_proxy()`). -/
structure RReq where
  hash : Int
  proxied : Bool := false
  path : List NodeKey := []
  deriving DecidableEq, Repr

/-- Result of `_determine_partition`: an error return, undefined behaviour of the resolver, or a partition
and whether it is one in preparation. -/
inductive Det where
  | err
  | ub
  | found (p : Part) (prep : Bool)
  deriving DecidableEq, Repr

/-- `_determine_partition`, /repo/src/lib/cluster.cc:2172-2210. -/
def determine (kr : Resolver) (v : View) (h : Int) (checkPrepare : Bool) : Det :=
  if v.npm.length = 0 then .err
  else
    match resolve kr h (if checkPrepare then v.npm.length + v.nppm.length else v.npm.length) with
    | none => .ub
    | some n =>
      match (if checkPrepare then mfind v.nppm n else none) with
      | some p => .found p true
      | none =>
        match mfind v.npm n with
        | some p => .found p false
        | none => .err

/-- The partition in preparation the key belongs to, if any: the second call with its ignored return value.
Outer `none`: undefined behaviour. -/
def determinePrep (kr : Resolver) (v : View) (h : Int) : Option (Option Part) :=
  match determine kr v h true with
  | .ub => none
  | .found p true => some (some p)
  | _ => some none

/-- The own node is the master of the partition. -/
def Part.ledBy (p : Part) (me : NodeKey) : Bool := p.master = some me

/-- What `pre_proxy_write` decides. -/
inductive Pre where
  /-- `proxy_request_continue`: executed here -/
  | execute
  /-- `proxy_request_complete`: forwarded to a node -/
  | forward (to : NodeKey)
  | errPartition
  | errEnqueue
  | ub
  deriving DecidableEq, Repr

/-- `_enqueue`, /repo/src/lib/cluster.cc:1606-1630: fails for an unknown node (also the empty key), or when
the queue does not take the request (`room` says whether it does). -/
def enqueueOk (v : View) (room : NodeKey → Bool) (to : NodeKey) : Bool :=
  (mfind v.nodes to).isSome && room to

/-- `pre_proxy_write`, /repo/src/lib/cluster.cc:1366-1417. -/
def preWrite (kr : Resolver) (me : NodeKey) (v : View) (room : NodeKey → Bool) (r : RReq) : Pre :=
  match determine kr v r.hash false with
  | .err => .errPartition
  | .ub => .ub
  | .found p _ =>
    match determinePrep kr v r.hash with
    | none => .ub
    | some prep =>
      if p.ledBy me || (r.proxied && prep.any (·.ledBy me)) then .execute
      else if r.proxied && (p.index.contains me || prep.any (·.index.contains me)) then .execute
      else
        match p.master with
        | none => .errEnqueue
        | some to => if enqueueOk v room to then .forward to else .errEnqueue

/-- `post_proxy_write`, /repo/src/lib/cluster.cc:1422-1495: the nodes a copy is sent to, in order; `none` is
undefined behaviour.  Nodes whose queue does not take the request are skipped. -/
def postWrite (kr : Resolver) (me : NodeKey) (v : View) (room : NodeKey → Bool) (r : RReq) :
    Option (List NodeKey) :=
  match determine kr v r.hash false with
  | .err => some []
  | .ub => none
  | .found p _ =>
    match determinePrep kr v r.hash with
    | none => none
    | some prep =>
      if p.ledBy me || (r.proxied && prep.any (·.ledBy me)) then
        if 2 ≤ r.path.count me then some []
        else
          let own := match prep with
            | some q => if q.ledBy me then q else p
            | none => p
          let slaves := own.slaves.map (·.1)
          let next := match prep with
            | some q => if p.ledBy me then q.master.toList else []
            | none => []
          some ((slaves ++ next).filter (enqueueOk v room))
      else some []

/-- The request as it is sent on: the path with the own node added (:1402-1404, :1457-1458). -/
def RReq.next (r : RReq) (me : NodeKey) : RReq := { r with proxied := true, path := r.path ++ [me] }

/-- What a node does with a write. -/
structure Handled where
  executed : Bool
  sends : List NodeKey
  deriving DecidableEq, Repr

/-- A write at a node: `_run_server` of the write operations, e.g. /repo/src/lib/op_set.cc:113-181.  `changed`:
the storage reports that something was stored (only then copies are sent).  `none` is undefined behaviour. -/
def handle (kr : Resolver) (me : NodeKey) (v : View) (room : NodeKey → Bool) (changed : Bool) (r : RReq) :
    Option Handled :=
  match preWrite kr me v room r with
  | .ub => none
  | .errPartition | .errEnqueue => some ⟨false, []⟩
  | .forward to => some ⟨false, [to]⟩
  | .execute =>
    if changed then
      match postWrite kr me v room r with
      | none => none
      | some l => some ⟨true, l⟩
    else some ⟨true, []⟩

/-- What `pre_proxy_read` decides. -/
inductive PreRead where
  | serve
  | forward (to : NodeKey)
  | errPartition
  | errEnqueue
  | ub
  deriving DecidableEq, Repr

/-- `pre_proxy_read`, /repo/src/lib/cluster.cc:1305-1359; `rnd` is the value of `rand()`. -/
def preRead (kr : Resolver) (me : NodeKey) (v : View) (room : NodeKey → Bool) (rnd : Nat) (h : Int) : PreRead :=
  match determine kr v h false with
  | .err => .errPartition
  | .ub => .ub
  | .found p _ =>
    if p.ledBy me then .serve
    else if p.slaves.any fun s => 0 < s.2 && s.1 = me then .serve
    else if p.balance.length = 0 then .errPartition
    else
      let l := if p.prior.length > 0 then p.prior else p.balance
      match l[rnd % l.length]? with
      | none => .ub
      | some to => if enqueueOk v room to then .forward to else .errEnqueue

end Flare
