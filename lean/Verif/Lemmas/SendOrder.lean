import Verif.Spec.SendOrder
import Verif.Lemmas.Rebuild
import Verif.Props.Storage3

/-! Lemmas about the order of replicated writes. -/
namespace Flare

theorem ofKey_append (k : Bytes) (a b : List Wr) : ofKey k (a ++ b) = ofKey k a ++ ofKey k b :=
  List.filter_append ..

/-- The queue for a key. -/
def SendSt.queueOf (hash : Bytes → Int32) (s : SendSt) (k : Bytes) : List Wr :=
  s.queues (senderIndex hash s.senders k)

/-- Copies of a key are in no other queue than the key's. -/
def InPlace (hash : Bytes → Int32) (k : Bytes) (s : SendSt) : Prop :=
  ∀ i, i ≠ senderIndex hash s.senders k → ofKey k (s.queues i) = []

theorem setQueue_same (s : SendSt) (i : Nat) (q : List Wr) : (s.setQueue i q).queues i = q := by
  simp [SendSt.setQueue]

theorem setQueue_other (s : SendSt) {i j : Nat} (q : List Wr) (h : j ≠ i) :
    (s.setQueue i q).queues j = s.queues j := by
  simp [SendSt.setQueue, h]

theorem ofKey_single (k : Bytes) (w : Wr) : ofKey k [w] = if w.key = k then [w] else [] := by
  by_cases h : w.key = k <;> simp [ofKey, h]

theorem steady_senders {hash : Bytes → Int32} {s : SendSt} {ev : SendEv} (h : ev.steady = true) :
    (s.step hash ev).senders = s.senders := by
  cases ev with
  | exec c w => simp only [SendSt.step]; split <;> rfl
  | enq c => simp only [SendSt.step]; split <;> rfl
  | refuse c => rfl
  | send i => simp only [SendSt.step]; split <;> rfl
  | skip i => simp only [SendSt.step]; split <;> rfl
  | senders n => cases h

/-- What one event does to the copies of a key: one may be added at the end of the key's queue,
one may be taken from its front, and this one is sent or not. -/
theorem send_step {hash : Bytes → Int32} {k : Bytes} {s : SendSt} {ev : SendEv}
    (hp : InPlace hash k s) (hs : ev.steady = true) :
    InPlace hash k (s.step hash ev) ∧ ∃ new old out : List Wr,
      ofKey k (s.queueOf hash k) ++ new = old ++ ofKey k ((s.step hash ev).queueOf hash k) ∧
      ofKey k (s.step hash ev).sent = ofKey k s.sent ++ out ∧
      (match ev with
        | .enq c => new = ofKey k (((s.pending.find? (fun p => p.1 == c)).map (·.2)).toList)
        | _ => new = []) ∧
      (out = old ∨ (out = [] ∧ ev.lossless = false)) := by
  cases ev with
  | senders n => cases hs
  | exec c w =>
    simp only [SendSt.step]
    split
    · exact ⟨hp, [], [], [], by simp, by simp, rfl, Or.inl rfl⟩
    · exact ⟨hp, [], [], [], by simp [SendSt.queueOf], by simp, rfl, Or.inl rfl⟩
  | refuse c => exact ⟨hp, [], [], [], by simp [SendSt.queueOf, SendSt.step],
      by simp [SendSt.step], rfl, Or.inl rfl⟩
  | enq c =>
    simp only [SendSt.step]
    cases hf : s.pending.find? (fun p => p.1 == c) with
    | none =>
      exact ⟨hp, [], [], [], by simp, by simp, rfl, Or.inl rfl⟩
    | some x =>
      obtain ⟨c', w⟩ := x
      dsimp only
      refine ⟨?_, ofKey k [w], [], [], ?_, by simp [SendSt.setQueue], rfl, Or.inl rfl⟩
      · intro i hi
        show ofKey k ((s.setQueue _ _).queues i) = []
        have hi : i ≠ senderIndex hash s.senders k := hi
        by_cases h : i = senderIndex hash s.senders w.key
        · subst h
          rw [setQueue_same, ofKey_append, hp _ hi, ofKey_single]
          rw [if_neg (fun h => hi (by rw [h]))]
          rfl
        · rw [setQueue_other _ _ h]; exact hp i hi
      · show _ = [] ++ ofKey k ((s.setQueue _ _).queues (senderIndex hash s.senders k))
        unfold SendSt.queueOf
        by_cases h : senderIndex hash s.senders k = senderIndex hash s.senders w.key
        · rw [h, setQueue_same, ofKey_append]; rfl
        · rw [setQueue_other _ _ h, ofKey_single, if_neg (fun h' => h (by rw [h']))]; simp
  | send i =>
    simp only [SendSt.step]
    cases hq : s.queues i with
    | nil =>
      exact ⟨hp, [], [], [], by simp, by simp, rfl, Or.inl rfl⟩
    | cons w q =>
      dsimp only
      refine ⟨?_, [], ofKey k [w], ofKey k [w], ?_, ofKey_append .., rfl, Or.inl rfl⟩
      · intro j hj
        show ofKey k ((s.setQueue _ _).queues j) = []
        have hj : j ≠ senderIndex hash s.senders k := hj
        by_cases h : j = i
        · subst h
          rw [setQueue_same]
          have := hp j hj
          rw [hq, ← List.singleton_append, ofKey_append, List.append_eq_nil_iff] at this
          exact this.2
        · rw [setQueue_other _ _ h]; exact hp j hj
      · show _ = _ ++ ofKey k ((s.setQueue _ _).queues (senderIndex hash s.senders k))
        rw [List.append_nil]
        unfold SendSt.queueOf
        by_cases h : senderIndex hash s.senders k = i
        · rw [h, setQueue_same, ← ofKey_append, hq]; rfl
        · rw [setQueue_other _ _ h]
          have := hp i (fun e => h e.symm)
          rw [hq, ← List.singleton_append, ofKey_append, List.append_eq_nil_iff] at this
          rw [this.1]; rfl
  | skip i =>
    simp only [SendSt.step]
    cases hq : s.queues i with
    | nil =>
      exact ⟨hp, [], [], [], by simp, by simp, rfl, Or.inl rfl⟩
    | cons w q =>
      dsimp only
      refine ⟨?_, [], ofKey k [w], [], ?_, by simp [SendSt.setQueue], rfl, Or.inr ⟨rfl, rfl⟩⟩
      · intro j hj
        have hj : j ≠ senderIndex hash s.senders k := hj
        by_cases h : j = i
        · subst h
          rw [setQueue_same]
          have := hp j hj
          rw [hq, ← List.singleton_append, ofKey_append, List.append_eq_nil_iff] at this
          exact this.2
        · rw [setQueue_other _ _ h]; exact hp j hj
      · show _ = _ ++ ofKey k ((s.setQueue _ _).queues (senderIndex hash s.senders k))
        rw [List.append_nil]
        unfold SendSt.queueOf
        by_cases h : senderIndex hash s.senders k = i
        · rw [h, setQueue_same, ← ofKey_append, hq]; rfl
        · rw [setQueue_other _ _ h]
          have := hp i (fun e => h e.symm)
          rw [hq, ← List.singleton_append, ofKey_append, List.append_eq_nil_iff] at this
          rw [this.1]; rfl

/-- Everything taken from the key's queue, and what is sent of it. -/
theorem send_run {hash : Bytes → Int32} {k : Bytes} : ∀ (evs : List SendEv) {s : SendSt},
    InPlace hash k s → (∀ ev ∈ evs, ev.steady = true) →
    ∃ old out : List Wr,
      ofKey k (s.queueOf hash k) ++ enqueued hash k s evs =
        old ++ ofKey k ((s.run hash evs).queueOf hash k) ∧
      ofKey k (s.run hash evs).sent = ofKey k s.sent ++ out ∧ out.Sublist old ∧
      ((∀ ev ∈ evs, ev.lossless = true) → out = old)
  | [], s, _, _ => ⟨[], [], by simp [enqueued, SendSt.run], by simp [SendSt.run],
      List.Sublist.refl _, fun _ => rfl⟩
  | ev :: evs, s, hp, hs => by
    obtain ⟨hp', new, old, out, h1, h2, h3, h4⟩ := send_step hp (hs ev (List.mem_cons_self ..))
    obtain ⟨old', out', g1, g2, g3, g4⟩ := send_run evs hp'
      (fun x hx => hs x (List.mem_cons_of_mem _ hx))
    have hrun : s.run hash (ev :: evs) = (s.step hash ev).run hash evs := rfl
    refine ⟨old ++ old', out ++ out', ?_, ?_, ?_, ?_⟩
    · have he : enqueued hash k s (ev :: evs) = new ++ enqueued hash k (s.step hash ev) evs := by
        simp only [enqueued]
        cases ev <;> simp only at h3 <;> rw [h3]
      rw [hrun, he, ← List.append_assoc, h1, List.append_assoc, g1, List.append_assoc]
    · rw [hrun, g2, h2, List.append_assoc]
    · refine List.Sublist.append ?_ g3
      rcases h4 with h4 | ⟨h4, -⟩
      · exact h4 ▸ List.Sublist.refl _
      · rw [h4]; exact List.nil_sublist _
    · intro hl
      rw [g4 (fun x hx => hl x (List.mem_cons_of_mem _ hx))]
      rcases h4 with h4 | ⟨-, h4⟩
      · rw [h4]
      · rw [hl ev (List.mem_cons_self ..)] at h4; cases h4

/-! ### Order of execution -/

/-- The writes of key `k` between execution and `enqueue`. -/
def SendSt.open_ (s : SendSt) (k : Bytes) : List Wr := ofKey k (s.pending.map (·.2))

theorem ofKey_length_cons (k : Bytes) (w : Wr) (ws : List Wr) :
    (ofKey k (w :: ws)).length = (if w.key = k then 1 else 0) + (ofKey k ws).length := by
  by_cases h : w.key = k
  · simp only [ofKey, List.filter_cons, h, beq_self_eq_true, if_true, List.length_cons]; omega
  · simp [ofKey, h]

/-- If at most one write of the key is open, the one found is it. -/
theorem open_erase {k : Bytes} {c : Nat} : ∀ (l : List (Nat × Wr)),
    (ofKey k (l.map (·.2))).length ≤ 1 →
    ofKey k (l.map (·.2)) =
      ofKey k (((l.find? (fun p => p.1 == c)).map (·.2)).toList) ++
        ofKey k ((l.eraseP (fun p => p.1 == c)).map (·.2))
  | [], _ => rfl
  | p :: l, h => by
    rw [List.map_cons, ofKey_length_cons] at h
    by_cases hc : (p.1 == c) = true
    · rw [List.find?_cons_of_pos (p := fun p : Nat × Wr => p.1 == c) hc,
        List.eraseP_cons_of_pos (p := fun p : Nat × Wr => p.1 == c) hc]
      show ofKey k (p.2 :: _) = ofKey k [p.2] ++ _
      rw [← ofKey_append]; rfl
    · rw [List.find?_cons_of_neg (p := fun p : Nat × Wr => p.1 == c) hc,
        List.eraseP_cons_of_neg (p := fun p : Nat × Wr => p.1 == c) hc, List.map_cons,
        List.map_cons]
      have ih := open_erase (k := k) (c := c) l (by omega)
      have cons : ∀ ws, ofKey k (p.2 :: ws) = (if p.2.key = k then [p.2] else []) ++ ofKey k ws := by
        intro ws
        rw [← List.singleton_append, ofKey_append, ofKey_single]
      rw [cons, cons]
      by_cases hk : p.2.key = k
      · rw [if_pos hk] at h ⊢
        have h0 : ofKey k (l.map (·.2)) = [] := List.eq_nil_of_length_eq_zero (by omega)
        rw [h0] at ih
        have := (List.append_eq_nil_iff.1 ih.symm)
        rw [h0, this.1, this.2]; rfl
      · rw [if_neg hk]
        exact ih

theorem open_erase_le {k : Bytes} {c : Nat} (l : List (Nat × Wr)) :
    (ofKey k ((l.eraseP (fun p => p.1 == c)).map (·.2))).Sublist (ofKey k (l.map (·.2))) := by
  unfold ofKey
  exact ((List.eraseP_sublist).map _).filter _

/-- What has been executed, enqueued and is still open. -/
theorem exec_run {hash : Bytes → Int32} {k : Bytes} : ∀ (evs : List SendEv) {s : SendSt},
    (s.open_ k).length ≤ 1 → OneAtATime hash k s evs →
    ∃ x : List Wr, ofKey k (s.run hash evs).executed = ofKey k s.executed ++ x ∧
      (enqueued hash k s evs ++ (s.run hash evs).open_ k).Sublist (s.open_ k ++ x) ∧
      ((∀ ev ∈ evs, ev.lossless = true) →
        enqueued hash k s evs ++ (s.run hash evs).open_ k = s.open_ k ++ x)
  | [], s, _, _ => ⟨[], by simp [SendSt.run], by simp [enqueued, SendSt.run],
      fun _ => by simp [enqueued, SendSt.run]⟩
  | ev :: evs, s, h1, h => by
    obtain ⟨ho, h⟩ := h
    have hrun : s.run hash (ev :: evs) = (s.step hash ev).run hash evs := rfl
    rw [hrun]
    have keep : (s.step hash ev).executed = s.executed → (s.step hash ev).pending = s.pending →
        enqueued hash k s (ev :: evs) = enqueued hash k (s.step hash ev) evs →
        ∃ x : List Wr,
          ofKey k ((s.step hash ev).run hash evs).executed = ofKey k s.executed ++ x ∧
          (enqueued hash k s (ev :: evs) ++ ((s.step hash ev).run hash evs).open_ k).Sublist
            (s.open_ k ++ x) ∧
          ((∀ ev' ∈ ev :: evs, ev'.lossless = true) →
            enqueued hash k s (ev :: evs) ++ ((s.step hash ev).run hash evs).open_ k =
              s.open_ k ++ x) := by
      intro he hp hq
      have ho' : (s.step hash ev).open_ k = s.open_ k := by unfold SendSt.open_; rw [hp]
      obtain ⟨x, g1, g2, g3⟩ := exec_run evs (by rw [ho']; exact h1) h
      rw [he] at g1
      rw [ho'] at g2 g3
      rw [hq]
      exact ⟨x, g1, g2, fun hl => g3 fun e he => hl e (List.mem_cons_of_mem _ he)⟩
    cases ev with
    | send i =>
      refine keep ?_ ?_ rfl <;> simp only [SendSt.step] <;> split <;> rfl
    | skip i =>
      refine keep ?_ ?_ rfl <;> simp only [SendSt.step] <;> split <;> rfl
    | senders n => exact keep rfl rfl rfl
    | exec c w =>
      by_cases hc : s.pending.any (fun p => p.1 == c) = true
      · have : s.step hash (.exec c w) = s := by simp only [SendSt.step]; rw [if_pos hc]
        exact keep (by rw [this]) (by rw [this]) rfl
      · have he : s.step hash (.exec c w) =
            { s with pending := s.pending ++ [(c, w)], executed := s.executed ++ [w] } := by
          simp only [SendSt.step]; rw [if_neg hc]
        have hopen : (s.step hash (.exec c w)).open_ k = s.open_ k ++ ofKey k [w] := by
          rw [he]; unfold SendSt.open_
          rw [List.map_append, ofKey_append]; rfl
        have hlen : ((s.step hash (.exec c w)).open_ k).length ≤ 1 := by
          rw [hopen, ofKey_single]
          by_cases hk : w.key = k
          · have : s.open_ k = [] := by
              unfold SendSt.open_ ofKey
              rw [List.filter_eq_nil_iff]
              intro w' hw'
              obtain ⟨p, hp, rfl⟩ := List.mem_map.1 hw'
              have hpc : p.1 ≠ c := by
                rintro rfl
                exact hc (List.any_eq_true.2 ⟨p, hp, by simp⟩)
              simpa using ho hk p hp hpc
            rw [this, if_pos hk]; simp
          · rw [if_neg hk, List.append_nil]; exact h1
        obtain ⟨x, g1, g2, g3⟩ := exec_run evs hlen h
        refine ⟨ofKey k [w] ++ x, ?_, ?_, ?_⟩
        · rw [g1, he]
          show ofKey k (s.executed ++ [w]) ++ x = _
          rw [ofKey_append, List.append_assoc]
        · rw [hopen, List.append_assoc] at g2; exact g2
        · intro hl
          rw [hopen, List.append_assoc] at g3
          exact g3 fun e he => hl e (List.mem_cons_of_mem _ he)
    | refuse c =>
      have hopen : ((s.step hash (.refuse c)).open_ k).Sublist (s.open_ k) := open_erase_le _
      obtain ⟨x, g1, g2, g3⟩ := exec_run evs (Nat.le_trans hopen.length_le h1) h
      refine ⟨x, g1, g2.trans (List.Sublist.append hopen (List.Sublist.refl _)), ?_⟩
      intro hl
      cases hl _ (List.mem_cons_self ..)
    | enq c =>
      have hopen : s.open_ k =
          ofKey k (((s.pending.find? (fun p => p.1 == c)).map (·.2)).toList) ++
            (s.step hash (.enq c)).open_ k := by
        have := open_erase (c := c) s.pending h1
        rw [SendSt.open_, this]
        congr 1
        simp only [SendSt.step]
        cases hf : s.pending.find? (fun p => p.1 == c) with
        | none =>
          rw [List.find?_eq_none] at hf
          rw [List.eraseP_of_forall_not hf]; rfl
        | some x => rfl
      have hexec : (s.step hash (.enq c)).executed = s.executed := by
        simp only [SendSt.step]; split <;> rfl
      obtain ⟨x, g1, g2, g3⟩ := exec_run evs (s := s.step hash (.enq c)) (by
        rw [hopen, List.length_append] at h1; omega) h
      refine ⟨x, by rw [g1, hexec], ?_, ?_⟩
      · rw [hopen]
        simp only [enqueued, List.append_assoc]
        exact List.Sublist.append (List.Sublist.refl _) g2
      · intro hl
        rw [hopen]
        simp only [enqueued, List.append_assoc]
        rw [g3 fun e he => hl e (List.mem_cons_of_mem _ he)]

theorem inPlace_run {hash : Bytes → Int32} {k : Bytes} : ∀ (evs : List SendEv) {s : SendSt},
    InPlace hash k s → (∀ ev ∈ evs, ev.steady = true) →
    InPlace hash k (s.run hash evs) ∧ (s.run hash evs).senders = s.senders
  | [], _, hp, _ => ⟨hp, rfl⟩
  | ev :: evs, s, hp, hs => by
    have h := inPlace_run evs (send_step hp (hs ev (List.mem_cons_self ..))).1
      (fun x hx => hs x (List.mem_cons_of_mem _ hx))
    rw [steady_senders (hs ev (List.mem_cons_self ..))] at h
    exact h

/-- Open writes of the key belong to its only writer. -/
theorem writer_run {hash : Bytes → Int32} {k : Bytes} {c : Nat} : ∀ (evs : List SendEv) {s : SendSt},
    (∀ p ∈ s.pending, p.2.key = k → p.1 = c) →
    (∀ c' w, SendEv.exec c' w ∈ evs → w.key = k → c' = c) → OneAtATime hash k s evs
  | [], _, _, _ => trivial
  | ev :: evs, s, hp, hc => by
    refine ⟨?_, writer_run evs ?_ (fun c' w h => hc c' w (List.mem_cons_of_mem _ h))⟩
    · cases ev with
      | exec c' w =>
        intro hk p hm hne hpk
        exact hne ((hp p hm hpk).trans (hc c' w (List.mem_cons_self ..) hk).symm)
      | _ => trivial
    · intro p hm hk
      cases ev with
      | exec c' w =>
        simp only [SendSt.step] at hm
        split at hm
        · exact hp p hm hk
        · rcases List.mem_append.1 hm with h | h
          · exact hp p h hk
          · cases List.mem_singleton.1 h
            exact hc c' w (List.mem_cons_self ..) hk
      | enq c' =>
        simp only [SendSt.step] at hm
        split at hm
        · exact hp p hm hk
        · exact hp p (List.mem_of_mem_eraseP hm) hk
      | refuse c' => exact hp p (List.mem_of_mem_eraseP hm) hk
      | send i =>
        simp only [SendSt.step] at hm
        split at hm <;> exact hp p hm hk
      | skip i =>
        simp only [SendSt.step] at hm
        split at hm <;> exact hp p hm hk
      | senders n => exact hp p hm hk

theorem oneAtATime_of_writer {hash : Bytes → Int32} {k : Bytes} {n c : Nat} {evs : List SendEv}
    (hc : ∀ c' w, SendEv.exec c' w ∈ evs → w.key = k → c' = c) :
    OneAtATime hash k { senders := n } evs :=
  writer_run evs (fun _ h => nomatch h) hc

/-! ### Versioned sets in any order -/

/-- Either the newest set has not come yet and nothing in the way of it is there, or it is there
for good. -/
theorem sets_fold {k : Bytes} {t : Int64} {x : Entry} : ∀ {cs : List (Env × Entry)} {s : Store},
    s.Ok →
    (∀ c ∈ cs, c.2.key = k ∧ c.2.Ok ∧ c.2.version ≠ 0 ∧ c.1.putOk = true ∧ c.1.now ≤ t) →
    (∀ c ∈ cs, c.2.version ≤ x.version ∧ (c.2.version = x.version → c.2.item = x.item)) →
    ¬ (0 < x.expire ∧ x.expire ≤ t) →
    (∀ it, kstate s k = .record it → it.version ≤ x.version ∧
      (it.version = x.version → it = x.item)) →
    let s' := cs.foldl (fun s c => (set s c.1 c.2 .ofSet).1) s
    s'.Ok ∧ ((kstate s k ≠ .record x.item ∧ x ∉ cs.map (·.2)) ∨ kstate s' k = .record x.item)
  | [], s, hs, _, _, _, _ => ⟨hs, by
      by_cases h : kstate s k = .record x.item
      · exact Or.inr h
      · exact Or.inl ⟨h, by simp⟩⟩
  | c :: cs, s, hs, hcs, hmax, hfresh, hinv => by
    obtain ⟨hk, he, h0, hp, hn⟩ := hcs c (List.mem_cons_self ..)
    obtain ⟨hle, heq⟩ := hmax c (List.mem_cons_self ..)
    have hset := kstate_set hs he hp h0
    rw [hk] at hset
    have hok := set_ok hs c.1 c.2 .ofSet
    have hinv' : ∀ it, kstate (set s c.1 c.2 .ofSet).1 k = .record it → it.version ≤ x.version ∧
        (it.version = x.version → it = x.item) := by
      intro it hit
      rcases hset with h | ⟨it', h1, -, h2⟩
      · rw [h] at hit; cases hit; exact ⟨hle, heq⟩
      · rw [h2] at hit; cases hit; exact hinv _ h1
    obtain ⟨g1, g2⟩ := sets_fold hok (fun d hd => hcs d (List.mem_cons_of_mem _ hd))
      (fun d hd => hmax d (List.mem_cons_of_mem _ hd)) hfresh hinv'
    refine ⟨g1, ?_⟩
    rcases g2 with ⟨g2, g3⟩ | g2
    · left
      have hcx : c.2 ≠ x := by
        rintro hcx
        rcases hset with h | ⟨it, h1, hv, h2⟩
        · rw [hcx] at h; exact g2 (hcx ▸ h)
        · rw [hcx] at hv
          have := (hinv it h1).2 (UInt64.le_antisymm (hinv it h1).1 hv)
          rw [this] at h2
          exact g2 h2
      refine ⟨fun hrec => ?_, ?_⟩
      · have hl : lookup s c.1.now c.2.key = some x.item := by
          rw [kstate_lookup hs, hk, hrec, KState.visible]
          refine if_neg ?_
          rintro ⟨h1, h2⟩
          exact hfresh ⟨h1, Int64.le_trans h2 hn⟩
        have := C10_stale_set hs .ofSet (Or.inl rfl) h0 hl hle
        rw [this] at g2
        exact g2 hrec
      · rw [List.map_cons, List.mem_cons]
        rintro (h | h)
        · exact hcx h.symm
        · exact g3 h
    · exact Or.inr g2

end Flare
