import Verif.Model.KeyResolver
import Verif.Model.Rebuild

/-! Model of the replication to another cluster in mode duplicate
(/repo/src/lib/cluster_replication.cc, /repo/src/lib/handler_cluster_replication.cc,
/repo/src/lib/handler_dump_replication.cc): while copies of the writes are sent by some threads, another
thread sends every record, as an ordinary set with its version.

Simplifications.
* One master of the sending cluster, and for each key one master of the receiving one; that a copy gets
  there is C62.  The receiving master executes what it gets as a slave would (Model/Replication).
* A key that vanishes between the iteration and the read of the dump is C49; here nothing is sent for
  it. -/
namespace Flare

/-- What the dump thread sends for a record: `op_set::run_client` on the entry read,
/repo/src/lib/handler_dump_replication.cc:118-124. -/
def dumpSet (e : Entry) : WriteReq := { cmd := .set, path := [], entry := e }

/-- What the other cluster receives for something sent. -/
def Sent.crossed : Sent → WriteReq
  | .copy c => c
  | .dump e => dumpSet e

/-- `int index = key_hash_value % m.size()` in `cluster_replication::_enqueue`,
/repo/src/lib/cluster_replication.cc:252-258: the hash value is converted to `size_t` first.  `none`:
there is no thread, and the copy is dropped (`on_post_proxy_write` ignores this, :204-207). -/
def crossThread (h : Int32) (n : Nat) : Option Nat :=
  if n = 0 then none else some (UInt64.ofInt h.toInt).toNat |>.map (· % n)

/-- `_enqueue` for a list of queues. -/
def crossEnqueue (hash : Bytes → Int32) (qs : List (List WriteReq)) (c : WriteReq) : List (List WriteReq) :=
  match crossThread (hash c.entry.key) qs.length with
  | none => qs
  | some i => qs.modify i (· ++ [c])

end Flare
