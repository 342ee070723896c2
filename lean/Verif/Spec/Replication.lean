import Verif.Model.Replication
import Verif.Spec.Storage
import Verif.Spec.Text

/-! What replication is expected to achieve, and under which circumstances. -/
namespace Flare

/-- Whoever reads at `t` or later reads the same from both stores, whatever the key. -/
def SameFrom (t : Int64) (m s : Store) : Prop :=
  ∀ t', t ≤ t' → ∀ k, lookup s t' k = lookup m t' k

/-- A client's request as the parser hands it over: the key fits into a line, options are
known, the expiry is a point in time (C50), the value has the announced size (C55). -/
def ClientWrite (r : WriteReq) : Prop :=
  PlainKey r.entry.key 8192 ∧ r.entry.option < 8 ∧ Absolute r.entry.expire ∧ r.entry.Ok

/-- Whatever can be read from the store, at any time, expires never or at a point in time. -/
def AbsoluteStore (s : Store) : Prop :=
  ∀ t k it, lookup s t k = some it → Absolute it.expire

/-- Clocks: neither node's clock runs backwards, and a copy is executed no earlier (by the
slave's clock) than the write (by the master's clock).  `tm` and `ts` are the times reached
so far. -/
def Timely (tm ts : Int64) : List Event → Prop
  | [] => True
  | .write env _ _ arrival :: evs =>
    tm ≤ env.now ∧ ts ≤ arrival.now ∧ env.now ≤ arrival.now ∧ Timely env.now arrival.now evs
  | .readMaster env _ :: evs => tm ≤ env.now ∧ Timely env.now ts evs
  | .readSlave env _ :: evs => ts ≤ env.now ∧ Timely tm env.now evs
  | .flushMaster env :: evs => tm ≤ env.now ∧ Timely env.now ts evs

/-- No event is later than `t`. -/
def Event.doneBy (t : Int64) : Event → Prop
  | .write env _ _ arrival => env.now ≤ t ∧ arrival.now ≤ t
  | .readMaster env _ => env.now ≤ t
  | .readSlave env _ => env.now ≤ t
  | .flushMaster env => env.now ≤ t

/-- What a copy needs to take effect at the slave: the sender can write it, its version is not 0
(which would mean "no version"), and in the case of a touch the record is still there when it
arrives, or is to be gone by then anyway.  `m` is the master's store before the write. -/
def CopyArrives (m : Store) (arrival : Int64) (c : WriteReq) : Prop :=
  (encodeWrite c).isSome ∧ (c.cmd = .set → c.entry.version ≠ 0) ∧
    (c.cmd = .touch → lookup m arrival c.entry.key ≠ none ∨
      (0 < c.entry.expire ∧ c.entry.expire ≤ arrival))

/-- The circumstances of a whole history, from a given pair of stores on; no flush_all. -/
def Fair (ms : Store × Store) : List Event → Prop
  | [] => True
  | ev :: evs =>
    (match ev with
      | .write env path r arrival =>
        ClientWrite r ∧ PlainPath path ∧ arrival.putOk = true ∧ arrival.outOk = true ∧
          ∀ c, (atMaster ms.1 env path r).2 = some c → CopyArrives ms.1 arrival.now c
      | .flushMaster _ => False
      | _ => True) ∧ Fair (ev.apply ms) evs

end Flare
