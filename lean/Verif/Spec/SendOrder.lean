import Verif.Model.SendOrder

/-! Notions used to state the order of replicated writes. -/
namespace Flare

/-- The writes of one key. -/
def ofKey (k : Bytes) (ws : List Wr) : List Wr := ws.filter (fun w => w.key == k)

/-- The copies of key `k` that are enqueued while the events happen, in this order. -/
def enqueued (hash : Bytes → Int32) (k : Bytes) : SendSt → List SendEv → List Wr
  | _, [] => []
  | s, ev :: evs =>
    (match ev with
      | .enq c => ofKey k (((s.pending.find? (fun p => p.1 == c)).map (·.2)).toList)
      | _ => []) ++ enqueued hash k (s.step hash ev) evs

/-- No write of key `k` is executed while another thread is still to enqueue the copy of one. -/
def OneAtATime (hash : Bytes → Int32) (k : Bytes) : SendSt → List SendEv → Prop
  | _, [] => True
  | s, ev :: evs =>
    (match ev with
      | .exec c w => w.key = k → ∀ p ∈ s.pending, p.1 ≠ c → p.2.key ≠ k
      | _ => True) ∧ OneAtATime hash k (s.step hash ev) evs

/-- The senders stay the same. -/
def SendEv.steady : SendEv → Bool
  | .senders _ => false
  | _ => true

/-- Nothing is dropped on the way. -/
def SendEv.lossless : SendEv → Bool
  | .refuse _ => false
  | .skip _ => false
  | _ => true

end Flare
