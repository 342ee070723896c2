import Verif.Spec.Memory
import Verif.Spec.BinSession
import Verif.Props.BinMeaning

/-! What clients of the binary protocol should see of the one memory of a node (Spec/Memory), written after the
description of the protocol. -/
namespace Flare

/-- Requests without a version, except for `set`. -/
def BinAsk.Plain : BinAsk → Prop
  | .add _ _ _ _ _ c | .replace _ _ _ _ _ c | .append _ _ _ c | .prepend _ _ _ c | .delete _ _ c => c = 0
  | _ => True

/-- What a request asks of the memory; a `set` with a version is a `cas`. -/
def BinAsk.asks (now : Int64) : BinAsk → List MemAsk
  | .set _ k v f x c => [.write { cmd := if c = 0 then .set else .cas, entry := binStored now k v f x c }]
  | .add _ k v f x _ => [.write { cmd := .add, entry := binStored now k v f x 0 }]
  | .replace _ k v f x _ => [.write { cmd := .replace, entry := binStored now k v f x 0 }]
  | .append _ k v _ => [.write { cmd := .append, entry := binJoined k v 0 }]
  | .prepend _ k v _ => [.write { cmd := .prepend, entry := binJoined k v 0 }]
  | .delete _ k _ => [.write { cmd := .delete, entry := { key := k } }]
  | .incr _ k n i x => [.write { cmd := .incr, entry := binCounter now k i x, value := n }]
  | .decr _ k n i x => [.write { cmd := .decr, entry := binCounter now k i x, value := n }]
  | .get _ _ k => [.read k]
  | .touch k x => [.write { cmd := .touch, entry := { key := k, expire := binExpiry now x } }]
  | .gat _ k x => [.write { cmd := .gat, entry := { key := k, expire := binExpiry now x } }]
  | .flush _ => [.clear]
  | .noop | .version => []

/-- An answer with a value. -/
def binItem (op : UInt8) (k : Bytes) (it : Item) : BinMsg :=
  { opcode := op, extras := beBytes 4 it.flag.toNat, key := k, value := it.data }

/-- What a client should read, from what the memory says. -/
def BinAsk.told (a : BinAsk) (ts : List MemTold) : BinMsg :=
  let op := a.msg.opcode
  match a, ts with
  | .get _ w k, [.value it] => binItem op (if w then k else []) it
  | .get _ w k, _ => { BinMsg.plain op 1 (ascii "Not found") with key := if w then k else [] }
  | .noop, _ => .plain op 0 []
  | .version, _ => .plain op 0 (ascii "flare-1.3.4")
  | .flush _, [.cleared] => .plain op 0 []
  | .flush _, _ => .plain op 0x84 (ascii "unknown error")
  | _, [.said .notFound] => .plain op 1 (ascii "Not found")
  | _, [.said .exists_] => .plain op 2 (ascii "Key exists")
  | _, [.said .notStored] => .plain op 5 (ascii "Item not stored")
  | _, [.said _] => .plain op 0 []
  | _, [.number n] => .plain op 0 (beBytes 8 n)
  | _, [.value it] => binItem op [] it
  | _, _ => .plain op 0x84 (ascii "i/o error")

def binAsksOf (now : Int64) (as : List BinAsk) : List MemAsk := as.flatMap (BinAsk.asks now)

def binRepliesOf (now : Int64) : List BinAsk → List MemTold → List BinMsg
  | [], _ => []
  | a :: as, ts => a.told (ts.take (a.asks now).length) :: binRepliesOf now as (ts.drop (a.asks now).length)

/-- The rest of the node, for one session: the outcomes of its calls in order. -/
def binOracle : BBack (List Out) where
  write l w := (l.tail, .own (l.head?.getD ⟨.err, none, w.req.entry⟩))
  read l k := (l.tail, .here (l.head?.getD ⟨.err, none, { key := k }⟩))
  status l := (l, none)
  flush l := (l.tail, l.head?.map (·.rc) = some .ok)

/-- Nothing undefined, and all values can be sent together with their keys. -/
def AllFit (s : Shared) (l : List AskEv) : Prop :=
  ∀ c now cmd o, .did c now cmd o ∈ shSeen s (l.map AskEv.ev) →
    o.rc ≠ .ub ∧ o.e.size.toNat + 65540 ≤ intMax

end Flare
