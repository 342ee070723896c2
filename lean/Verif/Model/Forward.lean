import Verif.Model.Replication
import Verif.Model.Binary
import Verif.Model.Routing

/-! Model of handing a write to another node: what the queue entry keeps of the operation, and which
operation is made of it.

Simplifications.
* The queue entry is the request that is sent (`WriteReq`): ident, path, entry, amount.
* The answer on its way back is in Model/Control (answer lines) and Model/Text (values). -/
namespace Flare

/-- A write operation in the hands of a node: the request, and whether `_behavior` has got
`behavior_cas` from a binary request with a version (/repo/src/lib/op_set.cc:100-102). -/
structure HeldOp where
  req : WriteReq
  cas : Bool := false
  deriving DecidableEq, Repr

/-- A binary set (opcode 0x01) in the hands of a node. -/
def BinReq.held (b : BinReq) : HeldOp := ⟨{ cmd := .set, entry := b.entry }, b.cas⟩

/-- The storage call if the node executes the operation itself, /repo/src/lib/op_set.cc:144. -/
def HeldOp.call (op : HeldOp) : Cmd :=
  match op.req.call with
  | .set e b => .set e { b with cas := b.cas || op.cas }
  | c => c

/-- `pre_proxy_write` of the cluster, /repo/src/lib/cluster.cc:1404-1407, and `_get_op`,
/repo/src/lib/queue_proxy_write.cc:132-189, for a queue that is not post-proxy: the operation is made
from the ident; the amount is passed by `op_incr` only (/repo/src/lib/op_incr.cc:156). -/
def HeldOp.forward (me : Bytes) (op : HeldOp) : WriteReq :=
  { cmd := op.req.cmd, path := op.req.path ++ [me], entry := op.req.entry
    value := if op.req.cmd.kind = .count then op.req.value else 0 }

/-- `cluster_replication::on_pre_proxy_write` in mode forward,
/repo/src/lib/cluster_replication.cc:167-192: no node is added to the path and the amount is not set
(0 from the constructor, /repo/src/lib/queue_proxy_write.cc:51-62). -/
def HeldOp.forwardCluster (op : HeldOp) : WriteReq :=
  { cmd := op.req.cmd, path := op.req.path, entry := op.req.entry, value := 0 }

/-- `cluster_replication::on_post_proxy_write`, /repo/src/lib/cluster_replication.cc:197-220: a copy
of what has been executed, with the path the request had. -/
def HeldOp.copyCluster (op : HeldOp) (o : Out) : Option WriteReq := copyOf op.req.path op.req o

/-- A request as routing sees it: `is_proxy_request()` is set when there is a path in front,
/repo/src/lib/op.cc:93-100. -/
def WriteReq.routed (name : Bytes → NodeKey) (hash : Bytes → Int) (r : WriteReq) : RReq :=
  { hash := hash r.entry.key, proxied := r.path ≠ [], path := r.path.map name }

end Flare
