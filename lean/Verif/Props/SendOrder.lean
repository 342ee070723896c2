import Verif.Lemmas.SendOrder
import Verif.Lemmas.Rebuild
import Verif.Props.Storage3
import Verif.Model.Replication

/-! Property C33: the order of the writes of one key at one destination. -/
namespace Flare

/-- As long as the senders stay the same, the copies of a key go through one queue, and what is
sent is what has been enqueued, in the same order: a prefix of it if nothing is dropped,
otherwise a part of such a prefix; the rest is still in the queue, in the same order.  This holds
for every history of client threads and senders, from every state in which the key's copies are
in one queue.

Partial: the order is that of enqueueing, not that of execution. -/
theorem C33_fifo_partial {hash : Bytes → Int32} {k : Bytes} {s : SendSt} {evs : List SendEv}
    (hq : ∀ i, i ≠ senderIndex hash s.senders k → ofKey k (s.queues i) = [])
    (hev : ∀ ev ∈ evs, ev.steady = true) :
    (∀ i, i ≠ senderIndex hash s.senders k → ofKey k ((s.run hash evs).queues i) = []) ∧
    ∃ old out : List Wr,
      ofKey k (s.queues (senderIndex hash s.senders k)) ++ enqueued hash k s evs =
        old ++ ofKey k ((s.run hash evs).queues (senderIndex hash s.senders k)) ∧
      ofKey k (s.run hash evs).sent = ofKey k s.sent ++ out ∧ out.Sublist old ∧
      ((∀ ev ∈ evs, ev.lossless = true) → out = old) := by
  obtain ⟨hp, hn⟩ := inPlace_run evs hq hev
  obtain ⟨old, out, h1, h2, h3, h4⟩ := send_run evs hq hev
  unfold SendSt.queueOf at h1
  rw [hn] at h1
  refine ⟨fun i hi => hp i (by rw [hn]; exact hi), old, out, h1, h2, h3, h4⟩

/-- If, in addition, no thread executes a write of the key while another one is still to enqueue
the copy of such a write, the copies are sent in the order of execution: what has been executed
is what has been sent, what is in the queue and what is about to be enqueued, in this order, if
nothing is dropped; otherwise the latter is a part of the former in the same order. -/
theorem C33_order_partial {hash : Bytes → Int32} {k : Bytes} {n : Nat} {evs : List SendEv}
    (hev : ∀ ev ∈ evs, ev.steady = true) (h1 : OneAtATime hash k { senders := n } evs) :
    let s := SendSt.run hash { senders := n } evs
    let way := ofKey k s.sent ++ ofKey k (s.queues (senderIndex hash n k)) ++
      ofKey k (s.pending.map (·.2))
    way.Sublist (ofKey k s.executed) ∧
    ((∀ ev ∈ evs, ev.lossless = true) → way = ofKey k s.executed) := by
  intro s way
  obtain ⟨-, old, out, g1, g2, g3, g4⟩ :=
    C33_fifo_partial (s := { senders := n }) (fun i _ => rfl) hev
  obtain ⟨x, e1, e2, e3⟩ := exec_run (s := { senders := n }) evs (by simp [SendSt.open_, ofKey]) h1
  have hg1 : enqueued hash k { senders := n } evs =
      old ++ ofKey k (s.queues (senderIndex hash n k)) := g1
  have hg2 : ofKey k s.sent = out := g2
  have he1 : ofKey k s.executed = x := e1
  rw [hg1] at e2 e3
  show (ofKey k s.sent ++ _ ++ _).Sublist _ ∧ (_ → ofKey k s.sent ++ _ ++ _ = _)
  rw [hg2, he1]
  refine ⟨List.Sublist.trans ?_ e2, fun hl => ?_⟩
  · exact List.Sublist.append (List.Sublist.append g3 (List.Sublist.refl _)) (List.Sublist.refl _)
  · rw [g4 hl]; exact e3 hl

/-- In particular, the writes of a key that is written by one client thread only are sent in the
order of execution, whatever the other threads do with other keys. -/
theorem C33_one_writer {hash : Bytes → Int32} {k : Bytes} {n c : Nat} {evs : List SendEv}
    (hev : ∀ ev ∈ evs, ev.steady = true)
    (hc : ∀ c' w, SendEv.exec c' w ∈ evs → w.key = k → c' = c) :
    let s := SendSt.run hash { senders := n } evs
    (ofKey k s.sent).Sublist (ofKey k s.executed) ∧
    ((∀ ev ∈ evs, ev.lossless = true) → ofKey k s.sent <+: ofKey k s.executed) := by
  obtain ⟨h1, h2⟩ := C33_order_partial hev (oneAtATime_of_writer (n := n) hc)
  refine ⟨List.Sublist.trans ?_ h1, fun hl => ?_⟩
  · rw [List.append_assoc]
    exact List.sublist_append_left _ _
  · rw [← h2 hl, List.append_assoc]
    exact List.prefix_append _ _

/-- Two client threads and two keys; the third write is still in its queue, the fourth one is
about to be enqueued. -/
example :
    let h : Bytes → Int32 := fun k => if k = [97] then 5 else 6
    let evs : List SendEv := [.exec 0 ⟨[97], 0⟩, .exec 1 ⟨[98], 1⟩, .enq 1, .enq 0, .exec 1 ⟨[97], 2⟩,
      .send 2, .enq 1, .exec 0 ⟨[97], 3⟩, .enq 0, .send 2, .exec 1 ⟨[97], 4⟩, .send 0]
    let s := SendSt.run h { senders := 3 } evs
    (∀ ev ∈ evs, ev.steady = true) ∧ (∀ ev ∈ evs, ev.lossless = true) ∧
    OneAtATime h [97] { senders := 3 } evs ∧
    ofKey [97] s.sent = [⟨[97], 0⟩, ⟨[97], 2⟩] ∧ s.queues 2 = [⟨[97], 3⟩] ∧
    s.pending = [(1, ⟨[97], 4⟩)] ∧ ofKey [98] s.sent = [⟨[98], 1⟩] := by
  refine ⟨by decide, by decide, ?_, by decide, by decide, by decide, by decide⟩
  simp only [OneAtATime]
  decide

/-! #### Where the order is lost -/

/-- The storage releases its locks before the copy is enqueued.  Two client threads that write
the same key can enqueue the copies in the other order: the senders stay the same, nothing is
dropped, and the copies are sent in the wrong order.  With a set and a delete, the replica
executes the delete first, and keeps a key that is deleted at its master; both of them start with
the same (empty) store. -/
theorem C33_overtaken :
    (let h : Bytes → Int32 := fun _ => 0
     let evs : List SendEv := [.exec 0 ⟨[107], 0⟩, .exec 1 ⟨[107], 1⟩, .enq 1, .enq 0, .send 0, .send 0]
     (∀ ev ∈ evs, ev.steady = true ∧ ev.lossless = true) ∧
     (SendSt.run h { senders := 1 } evs).executed = [⟨[107], 0⟩, ⟨[107], 1⟩] ∧
     (SendSt.run h { senders := 1 } evs).sent = [⟨[107], 1⟩, ⟨[107], 0⟩]) ∧
    (let empty : Store := { db := [], cache := [], cacheSize := 100 }
     let r0 : WriteReq := { cmd := .set, entry := { key := [107], size := 1, data := [120] } }
     let r1 : WriteReq := { cmd := .delete, entry := { key := [107] } }
     let (m1, c0) := atMaster empty { now := 3000000 } [[109]] r0
     let (m2, c1) := atMaster m1 { now := 3000000 } [[109]] r1
     let s1 := (c1.map (atSlave empty { now := 3000001 })).getD empty
     let s2 := (c0.map (atSlave s1 { now := 3000001 })).getD s1
     c0.isSome ∧ c1.isSome ∧ lookup m2 3000002 [107] = none ∧
     lookup s2 3000002 [107] = some ⟨[120], 0, 0, 1⟩) := by
  refine ⟨by decide, by decide +kernel⟩

/-- When a sender is started while copies are waiting, the later copies of a key may go to another
queue and be sent first, although a single client thread has written them one after the other. -/
theorem C33_new_sender :
    let h : Bytes → Int32 := fun _ => 1
    let evs : List SendEv := [.exec 0 ⟨[107], 0⟩, .enq 0, .senders 2, .exec 0 ⟨[107], 1⟩, .enq 0,
      .send 1, .send 0]
    (∀ ev ∈ evs, ev.lossless = true) ∧
    (SendSt.run h { senders := 1 } evs).executed = [⟨[107], 0⟩, ⟨[107], 1⟩] ∧
    (SendSt.run h { senders := 1 } evs).sent = [⟨[107], 1⟩, ⟨[107], 0⟩] := by
  decide

/-! #### What saves replicated sets -/

/-- Sets that carry versions may arrive in any order and more than once: if the newest of them is
newer than what the replica knows, the replica ends with it.  Every copy must be executed (no put
fails) before the newest one expires.  Equal versions must mean equal items. -/
theorem C33_sets_converge {s : Store} (hs : s.Ok) {k : Bytes} {t : Int64} {x : Entry}
    {cs : List (Env × Entry)} (hx : x ∈ cs.map (·.2))
    (hcs : ∀ c ∈ cs, c.2.key = k ∧ c.2.Ok ∧ c.2.version ≠ 0 ∧ c.1.putOk = true ∧ c.1.now ≤ t)
    (hmax : ∀ c ∈ cs, c.2.version ≤ x.version ∧
      (c.2.version = x.version → c.2.item = x.item))
    (hfresh : ¬ (0 < x.expire ∧ x.expire ≤ t)) (hknown : known s k < x.version) :
    lookup (cs.foldl (fun s c => (set s c.1 c.2 .ofSet).1) s) t k = some x.item := by
  obtain ⟨hok, h⟩ := sets_fold hs hcs hmax hfresh (by
    intro it hit
    have : it.version = known s k := by rw [← kstate_known, hit]; rfl
    rw [this]
    exact ⟨UInt64.le_of_lt hknown, fun h => absurd (h ▸ hknown) (UInt64.lt_irrefl _)⟩)
  have hr := (h.resolve_left (fun h => absurd hx h.2))
  rw [kstate_lookup hok, hr, KState.visible]
  rw [if_neg (show ¬ (0 < x.item.expire ∧ x.item.expire ≤ t) from hfresh)]

/-- Two replicas that execute the same sets in different orders agree. -/
theorem C33_any_order {s s' : Store} (hs : s.Ok) (hs' : s'.Ok) {k : Bytes} {t : Int64} {x : Entry}
    {cs cs' : List (Env × Entry)} (hperm : (cs.map (·.2)).Perm (cs'.map (·.2)))
    (hx : x ∈ cs.map (·.2))
    (hcs : ∀ c ∈ cs ++ cs', c.2.key = k ∧ c.2.Ok ∧ c.2.version ≠ 0 ∧ c.1.putOk = true ∧ c.1.now ≤ t)
    (hmax : ∀ c ∈ cs, c.2.version ≤ x.version ∧
      (c.2.version = x.version → c.2.item = x.item))
    (hfresh : ¬ (0 < x.expire ∧ x.expire ≤ t)) (hknown : known s k < x.version)
    (hknown' : known s' k < x.version) :
    lookup (cs.foldl (fun s c => (set s c.1 c.2 .ofSet).1) s) t k =
      lookup (cs'.foldl (fun s c => (set s c.1 c.2 .ofSet).1) s') t k := by
  rw [C33_sets_converge hs hx (fun c hc => hcs c (List.mem_append_left _ hc)) hmax hfresh hknown]
  refine (C33_sets_converge hs' (hperm.mem_iff.1 hx)
    (fun c hc => hcs c (List.mem_append_right _ hc)) (fun c hc => ?_) hfresh hknown').symm
  obtain ⟨c', hc', he⟩ := List.mem_map.1 (hperm.mem_iff.2 (List.mem_map_of_mem hc))
  rw [← he]
  exact hmax c' hc'

example :
    let e (v : UInt64) (d : UInt8) : Entry := { key := [107], size := 1, version := v, data := [d] }
    let s : Store := { db := [], cache := [], cacheSize := 100 }
    let env (t : Int64) : Env := { now := t }
    s.Ok ∧ known s [107] < 7 ∧
    lookup ([(env 5, e 7 55), (env 6, e 3 51), (env 6, e 7 55), (env 7, e 5 53)].foldl
      (fun s c => (set s c.1 c.2 .ofSet).1) s) 9 [107] = some ⟨[55], 0, 0, 7⟩ ∧
    lookup ([(env 4, e 3 51), (env 8, e 5 53), (env 9, e 7 55)].foldl
      (fun s c => (set s c.1 c.2 .ofSet).1) s) 9 [107] = some ⟨[55], 0, 0, 7⟩ := by
  refine ⟨?_, by decide, by decide, by decide⟩
  exact ⟨(fun _ _ h => nomatch h), by decide⟩

end Flare
