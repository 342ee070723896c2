import Verif.Model.ThreadPool

/-! Lemmas about the thread pools. -/
namespace Flare

/-- How often a thread is in one of the lists of a pool. -/
def Pool.cnt (p : Pool) (t : Nat) : Nat :=
  p.map.countP (fun e => e.2.2 == t) + p.stack.count t + p.held.count t + p.leaving.count t

structure PoolInv (s : Threads) : Prop where
  once : ∀ t, (s.pool false).cnt t + (s.pool true).cnt t ≤ 1
  old : ∀ t, s.fresh ≤ t → (s.pool false).cnt t = 0 ∧ (s.pool true).cnt t = 0
  nonzero : ∀ b, ∀ e ∈ (s.pool b).map, e.2.1 ≠ 0
  distinct : ∀ b, ((s.pool b).map.map (·.2.1)).Nodup
  own : ∀ b, ∀ e ∈ (s.pool b).map, s.own e.2.2 = (e.1, e.2.1)

theorem setPool_same (s : Threads) (b : Bool) (p : Pool) : (s.setPool b p).pool b = p := by
  simp [Threads.setPool]

theorem setPool_other (s : Threads) {b b' : Bool} (p : Pool) (h : b' ≠ b) :
    (s.setPool b p).pool b' = s.pool b' := by
  simp [Threads.setPool, h]

/-- Both pools at once: one of them and the other one. -/
theorem cnt_both (s : Threads) (b : Bool) (t : Nat) :
    (s.pool false).cnt t + (s.pool true).cnt t = (s.pool b).cnt t + (s.pool (!b)).cnt t := by
  cases b
  · rfl
  · exact Nat.add_comm _ _

theorem not_ne (b : Bool) : (!b) ≠ b := by cases b <;> decide

theorem once_of {s : Threads} (h : PoolInv s) (b : Bool) (t : Nat) :
    (s.pool b).cnt t + (s.pool (!b)).cnt t ≤ 1 := by
  rw [← cnt_both]; exact h.once t

theorem old_of {s : Threads} (h : PoolInv s) (b : Bool) {t : Nat} (ht : s.fresh ≤ t) :
    (s.pool b).cnt t = 0 := by
  cases b
  · exact (h.old t ht).1
  · exact (h.old t ht).2

/-- If one pool changes and each thread is in it at most as often as before, or was nowhere
before. -/
theorem inv_setPool {s s' : Threads} {b : Bool} (h : PoolInv s)
    (ho : s'.pool (!b) = s.pool (!b)) (hf : s.fresh ≤ s'.fresh)
    (hc : ∀ t, (s'.pool b).cnt t ≤ (s.pool b).cnt t ∨
      (t < s'.fresh ∧ s.fresh ≤ t ∧ (s'.pool b).cnt t ≤ 1))
    (hz : ∀ e ∈ (s'.pool b).map, e.2.1 ≠ 0) (hd : ((s'.pool b).map.map (·.2.1)).Nodup)
    (hw : ∀ b, ∀ e ∈ (s'.pool b).map, s'.own e.2.2 = (e.1, e.2.1)) : PoolInv s' := by
  refine ⟨?_, ?_, ?_, ?_, hw⟩
  · intro t
    rw [cnt_both s' b, ho]
    rcases hc t with h1 | ⟨-, h2, h3⟩
    · have := once_of h b t; omega
    · have := old_of h (!b) h2; omega
  · intro t ht
    have h1 : (s'.pool b).cnt t = 0 := by
      have := old_of h b (Nat.le_trans hf ht)
      rcases hc t with h1 | ⟨h1, -, -⟩ <;> omega
    have h2 : (s'.pool (!b)).cnt t = 0 := by
      rw [ho]; exact old_of h _ (Nat.le_trans hf ht)
    cases b
    · exact ⟨h1, h2⟩
    · exact ⟨h2, h1⟩
  · intro b'
    by_cases hb : b' = b
    · subst hb; exact hz
    · have : b' = !b := by cases b <;> cases b' <;> first | rfl | exact absurd rfl hb
      rw [this, ho]; exact h.nonzero _
  · intro b'
    by_cases hb : b' = b
    · subst hb; exact hd
    · have : b' = !b := by cases b <;> cases b' <;> first | rfl | exact absurd rfl hb
      rw [this, ho]; exact h.distinct _

theorem countP_find {α : Type} (k q : α → Bool) : ∀ (l : List α) {e : α}, l.find? k = some e →
    l.countP q = (l.eraseP k).countP q + (if q e then 1 else 0)
  | [], _, h => by cases h
  | a :: l, e, h => by
    rw [List.find?_cons] at h
    split at h
    · rename_i hk
      cases h
      rw [List.eraseP_cons_of_pos hk, List.countP_cons]
    · rename_i hk
      rw [List.eraseP_cons_of_neg (by simp [hk]), List.countP_cons, List.countP_cons,
        countP_find k q l h]
      omega

theorem cnt_zero_map {p : Pool} {t : Nat} (h : p.cnt t = 0) {e : Int × UInt32 × Nat}
    (he : e ∈ p.map) : e.2.2 ≠ t := by
  have : p.map.countP (fun e => e.2.2 == t) = 0 := by unfold Pool.cnt at h; omega
  have := List.countP_eq_zero.1 this e he
  simpa using this

/-- A thread that is in `held` is registered nowhere. -/
theorem held_not_mapped {s : Threads} (h : PoolInv s) {b : Bool} {t : Nat}
    (ht : t ∈ (s.pool b).held) (b' : Bool) {e : Int × UInt32 × Nat}
    (he : e ∈ (s.pool b').map) : e.2.2 ≠ t := by
  intro ht'
  have h1 := once_of h b t
  have h2 : 0 < (s.pool b).held.count t := List.count_pos_iff.2 ht
  have h3 : 0 < (s.pool b').map.countP (fun e => e.2.2 == t) :=
    List.countP_pos_iff.2 ⟨e, he, by simp [ht']⟩
  by_cases hb : b' = b
  · subst hb; unfold Pool.cnt at h1; omega
  · have : b' = !b := by cases b <;> cases b' <;> first | rfl | exact absurd rfl hb
    subst this; unfold Pool.cnt at h1; omega

/-- A thread is registered once. -/
theorem mapped_once {s : Threads} (h : PoolInv s) {b b' : Bool} {e e' : Int × UInt32 × Nat}
    (he : e ∈ (s.pool b).map) (he' : e' ∈ (s.pool b').map) (ht : e.2.2 = e'.2.2) :
    b = b' ∧ e = e' := by
  have h1 := once_of h b e.2.2
  have hp : 0 < (s.pool b).map.countP (fun x => x.2.2 == e.2.2) :=
    List.countP_pos_iff.2 ⟨e, he, by simp⟩
  have hp' : 0 < (s.pool b').map.countP (fun x => x.2.2 == e.2.2) :=
    List.countP_pos_iff.2 ⟨e', he', by simp [ht]⟩
  have hb : b = b' := by
    by_cases hb : b' = b
    · exact hb.symm
    · exfalso
      have : b' = !b := by cases b <;> cases b' <;> first | rfl | exact absurd rfl hb
      subst this; unfold Pool.cnt at h1; omega
  refine ⟨hb, ?_⟩
  have o1 := h.own b e he
  have o2 := h.own b' e' he'
  rw [ht, o2] at o1
  obtain ⟨a, i, t⟩ := e
  obtain ⟨a', i', t'⟩ := e'
  simp only [Prod.mk.injEq] at o1 ht ⊢
  exact ⟨o1.1.symm, o1.2.symm, ht⟩

theorem inv_start : PoolInv {} :=
  ⟨fun t => (by simp [Pool.cnt]), fun t _ => (by simp [Pool.cnt]), fun b e h => (by cases h),
    fun b => (by simp), fun b e h => (by cases h)⟩

theorem other_of_setPool (s : Threads) (b : Bool) (p : Pool) :
    (s.setPool b p).pool (!b) = s.pool (!b) := setPool_other s p (not_ne b)

theorem own_setPool {s : Threads} (h : PoolInv s) (b : Bool) {p : Pool}
    (hp : ∀ e ∈ p.map, e ∈ (s.pool b).map) :
    ∀ b', ∀ e ∈ ((s.setPool b p).pool b').map, s.own e.2.2 = (e.1, e.2.1) := by
  intro b' e he
  by_cases hb : b' = b
  · subst hb
    rw [setPool_same] at he
    exact h.own _ e (hp e he)
  · rw [setPool_other s p hb] at he
    exact h.own _ e he

theorem pool_inv_step {max : Nat} {s : Threads} (h : PoolInv s) (ev : Bool × PoolEv) :
    PoolInv (s.step max ev) := by
  obtain ⟨b, ev⟩ := ev
  cases ev with
  | pop =>
    simp only [Threads.step, Threads.popStep]
    cases hs : (s.pool b).stack with
    | cons t r =>
      dsimp only
      refine inv_setPool h (other_of_setPool ..) (Nat.le_refl _) ?_ ?_ ?_
        (own_setPool h b fun e he => he)
      · intro u
        left
        rw [setPool_same]
        simp only [Pool.cnt, hs, List.count_cons]
        omega
      · rw [setPool_same]; exact h.nonzero b
      · rw [setPool_same]; exact h.distinct b
    | nil =>
      dsimp only
      refine inv_setPool (b := b) h (other_of_setPool ..) (Nat.le_succ _) ?_ ?_ ?_
        (own_setPool h b fun e he => he)
      · intro u
        show ((s.setPool b _).pool b).cnt u ≤ _ ∨ (u < s.fresh + 1 ∧ _ ∧
          ((s.setPool b _).pool b).cnt u ≤ 1)
        rw [setPool_same]
        by_cases hu : s.fresh = u
        · right
          subst hu
          have := old_of h b (Nat.le_refl s.fresh)
          refine ⟨Nat.lt_succ_self _, Nat.le_refl _, ?_⟩
          simp only [Pool.cnt, List.count_cons_self, List.count_nil, hs] at this ⊢
          omega
        · left
          simp only [Pool.cnt, hs, List.count_nil]
          rw [List.count_cons_of_ne hu]
          omega
      · show ∀ e ∈ ((s.setPool b _).pool b).map, _
        rw [setPool_same]; exact h.nonzero b
      · show (((s.setPool b _).pool b).map.map _).Nodup
        rw [setPool_same]; exact h.distinct b
  | attempt t ty =>
    simp only [Threads.step, Threads.attemptStep]
    split
    · rename_i hh
      have hh : t ∈ (s.pool b).held := by simpa using hh
      split
      · exact ⟨h.once, h.old, h.nonzero, h.distinct, h.own⟩
      · rename_i hu
        simp only [Bool.or_eq_true, beq_iff_eq, not_or, List.any_eq_true, not_exists,
          not_and] at hu
        obtain ⟨hu0, hu⟩ := hu
        refine inv_setPool (b := b) h
          (other_of_setPool { s with counter := s.counter + 1 } b _) (Nat.le_refl _) ?_ ?_ ?_ ?_
        · intro u
          left
          show ((Threads.setPool { s with counter := s.counter + 1 } b _).pool b).cnt u ≤ _
          rw [setPool_same]
          simp only [Pool.cnt, List.countP_cons, List.count_erase]
          have hc : 0 < (s.pool b).held.count t := List.count_pos_iff.2 hh
          by_cases hut : t = u
          · subst hut
            simp only [beq_self_eq_true, if_true]
            omega
          · have h1 : (t == u) = false := by simpa using hut
            have h2 : (u == t) = false := by simpa using fun e : u = t => hut e.symm
            simp only [h1, Bool.false_eq_true, if_false]
            omega
        · show ∀ e ∈ ((Threads.setPool { s with counter := s.counter + 1 } b _).pool b).map, _
          rw [setPool_same]
          intro e he
          rcases List.mem_cons.1 he with rfl | he
          · exact hu0
          · exact h.nonzero b e he
        · show (((Threads.setPool { s with counter := s.counter + 1 } b _).pool b).map.map _).Nodup
          rw [setPool_same, List.map_cons, List.nodup_cons]
          refine ⟨?_, h.distinct b⟩
          rw [List.mem_map]
          rintro ⟨e, he, hi⟩
          exact hu e he hi
        · intro b' e he
          have hold : ∀ b'', e ∈ (s.pool b'').map →
              (if e.2.2 = t then (ty, s.counter.toUInt32) else s.own e.2.2) = (e.1, e.2.1) := by
            intro b'' he
            rw [if_neg (held_not_mapped h hh b'' he)]
            exact h.own b'' e he
          by_cases hb : b' = b
          · subst hb
            have he : e ∈ ((Threads.setPool { s with counter := s.counter + 1 } b' _).pool b').map :=
              he
            rw [setPool_same] at he
            rcases List.mem_cons.1 he with rfl | he
            · show (if t = t then _ else _) = _
              rw [if_pos rfl]
            · exact hold b' he
          · have he : e ∈ ((Threads.setPool { s with counter := s.counter + 1 } b _).pool b').map :=
              he
            rw [setPool_other _ _ hb] at he
            exact hold b' he
    · exact h
  | erase t =>
    simp only [Threads.step, Threads.eraseStep]
    split
    · exact h
    · rename_i e hf
      have hm := List.mem_of_find?_eq_some hf
      refine inv_setPool (b := b) h (other_of_setPool s b _) (Nat.le_refl _) ?_ ?_ ?_ ?_
      · intro u
        left
        show ((s.setPool b _).pool b).cnt u ≤ _
        rw [setPool_same]
        have := countP_find _ (fun x => x.2.2 == u) _ hf
        simp only [Pool.cnt, List.count_cons]
        omega
      · show ∀ e ∈ ((s.setPool b _).pool b).map, _
        rw [setPool_same]
        exact fun x hx => h.nonzero b x (List.mem_of_mem_eraseP hx)
      · show (((s.setPool b _).pool b).map.map _).Nodup
        rw [setPool_same]
        exact (List.Sublist.map _ List.eraseP_sublist).nodup (h.distinct b)
      · intro b' x hx
        have hx0 : x ∈ (s.pool b').map ∧ x.2.2 ≠ e.2.2 := by
          by_cases hb : b' = b
          · subst hb
            have hx : x ∈ ((s.setPool b' _).pool b').map := hx
            rw [setPool_same] at hx
            refine ⟨List.mem_of_mem_eraseP hx, ?_⟩
            intro he
            have h1 := once_of h b' e.2.2
            have h2 := countP_find _ (fun x => x.2.2 == e.2.2) _ hf
            have h3 : 0 < List.countP (fun x => x.2.2 == e.2.2) (List.eraseP
                (fun x => x.1 == (s.own t).1 && x.2.1 == (s.own t).2) (s.pool b').map) :=
              List.countP_pos_iff.2 ⟨x, hx, by simp [he]⟩
            simp only [beq_self_eq_true, if_true] at h2
            unfold Pool.cnt at h1
            omega
          · have hx : x ∈ ((s.setPool b _).pool b').map := hx
            rw [setPool_other _ _ hb] at hx
            exact ⟨hx, fun he => hb (mapped_once h hx hm he).1⟩
        show (if x.2.2 = e.2.2 then _ else s.own x.2.2) = _
        rw [if_neg hx0.2]
        exact h.own b' x hx0.1
  | push t =>
    simp only [Threads.step, Threads.pushStep]
    split
    · rename_i hl
      have hl : t ∈ (s.pool b).leaving := by simpa using hl
      have hc : 0 < (s.pool b).leaving.count t := List.count_pos_iff.2 hl
      refine inv_setPool h (other_of_setPool ..) (Nat.le_refl _) ?_ ?_ ?_
        (own_setPool h b fun e he => he)
      · intro u
        left
        rw [setPool_same]
        simp only [Pool.cnt, List.count_erase]
        by_cases hut : t = u
        · subst hut
          simp only [beq_self_eq_true, if_true]
          split
          · simp only [List.count_cons_self]; omega
          · omega
        · have h1 : (t == u) = false := by simpa using hut
          simp only [h1, Bool.false_eq_true, if_false]
          split
          · rw [List.count_cons_of_ne hut]; omega
          · omega
      · rw [setPool_same]; exact h.nonzero b
      · rw [setPool_same]; exact h.distinct b
    · exact h
  | shutdown =>
    simp only [Threads.step]
    refine inv_setPool h (other_of_setPool ..) (Nat.le_refl _) ?_ ?_ ?_
      (own_setPool h b fun e he => by cases he)
    · intro u
      left
      rw [setPool_same]
      simp only [Pool.cnt, List.countP_nil, List.count_nil]
      omega
    · rw [setPool_same]; intro e he; cases he
    · rw [setPool_same]; simp

theorem pool_inv_run {max : Nat} (evs : List (Bool × PoolEv)) : ∀ {s : Threads}, PoolInv s →
    PoolInv (s.run max evs) := by
  induction evs with
  | nil => intro s h; exact h
  | cons ev evs ih => intro s h; exact ih (pool_inv_step h ev)

/-! ### Finding a free id -/

theorem nodup_subset_length {α : Type} [BEq α] [LawfulBEq α] : ∀ {l m : List α}, l.Nodup →
    (∀ x ∈ l, x ∈ m) → l.length ≤ m.length
  | [], _, _, _ => Nat.zero_le _
  | a :: l, m, hd, hs => by
    rw [List.nodup_cons] at hd
    have ha := hs a (List.mem_cons_self ..)
    have := nodup_subset_length (m := m.erase a) hd.2 (by
      intro x hx
      refine (List.mem_erase_of_ne ?_).2 (hs x (List.mem_cons_of_mem _ hx))
      intro e; subst e; exact hd.1 hx)
    rw [List.length_erase_of_mem ha] at this
    have := List.length_pos_of_mem ha
    simp only [List.length_cons]
    omega

/-- The next `n` values of the counter, cut to 32 bits. -/
def candidates (c : UInt64) : Nat → List UInt32
  | 0 => []
  | n + 1 => c.toUInt32 :: candidates (c + 1) n

theorem cand_toNat {n : Nat} : ∀ {c : UInt64} {x : UInt32}, x ∈ candidates c n →
    ∃ k, k < n ∧ x.toNat = (c.toNat + k) % 2 ^ 32 := by
  induction n with
  | zero => intro c x h; cases h
  | succ n ih =>
    intro c x h
    rcases List.mem_cons.1 h with rfl | h
    · exact ⟨0, Nat.succ_pos _, by simp⟩
    · obtain ⟨k, hk, e⟩ := ih h
      refine ⟨k + 1, by omega, ?_⟩
      rw [e]
      simp only [UInt64.toNat_add, UInt64.toNat_one]
      omega

theorem candidates_nodup : ∀ (n : Nat) (c : UInt64), n ≤ 2 ^ 32 → (candidates c n).Nodup
  | 0, _, _ => List.nodup_nil
  | n + 1, c, h => by
    refine List.nodup_cons.2 ⟨?_, candidates_nodup n _ (by omega)⟩
    intro hm
    obtain ⟨k, hk, e⟩ := cand_toNat hm
    simp only [UInt64.toNat_add, UInt64.toNat_one, UInt64.toNat_toUInt32] at e
    omega

/-- An attempt by a thread in `held` registers it, or leaves everything but the counter as it is
because the id is not available. -/
theorem attempt_cases {s : Threads} {b : Bool} {t : Nat} (ty : Int) (h : t ∈ (s.pool b).held) :
    (∃ id, (ty, id, t) ∈ ((s.attemptStep b t ty).pool b).map) ∨
    (s.attemptStep b t ty = { s with counter := s.counter + 1 } ∧
      s.counter.toUInt32 ∈ 0 :: (s.pool b).map.map (·.2.1)) := by
  have h' : (s.pool b).held.contains t = true := by simpa using h
  simp only [Threads.attemptStep, h', if_true]
  split
  · rename_i hu
    right
    refine ⟨rfl, ?_⟩
    simp only [Bool.or_eq_true, beq_iff_eq, List.any_eq_true] at hu
    rcases hu with hu | ⟨e, he, hi⟩
    · rw [hu]; exact List.mem_cons_self ..
    · exact List.mem_cons_of_mem _ (List.mem_map.2 ⟨e, he, hi⟩)
  · left
    refine ⟨s.counter.toUInt32, ?_⟩
    show _ ∈ ((Threads.setPool { s with counter := s.counter + 1 } b _).pool b).map
    rw [setPool_same]
    exact List.mem_cons_self ..

/-- Once registered, a thread that is not in `held` makes no attempts. -/
theorem attempt_not_held {s : Threads} {b : Bool} {t : Nat} (ty : Int)
    (h : t ∉ (s.pool b).held) : s.attemptStep b t ty = s := by
  simp only [Threads.attemptStep]
  rw [if_neg (by simpa using h)]

/-- `n` rounds of the loop in a row. -/
theorem attempts {max : Nat} (b : Bool) (t : Nat) (ty : Int) : ∀ (n : Nat) {s : Threads},
    PoolInv s → t ∈ (s.pool b).held →
    (∃ id, (ty, id, t) ∈ ((s.run max (List.replicate n (b, .attempt t ty))).pool b).map) ∨
    ∀ x ∈ candidates s.counter n, x ∈ 0 :: (s.pool b).map.map (·.2.1)
  | 0, _, _, _ => Or.inr fun x hx => by cases hx
  | n + 1, s, hI, h => by
    rw [List.replicate_succ]
    show (∃ id, _ ∈ ((Threads.run max (s.attemptStep b t ty) _).pool b).map) ∨ _
    rcases attempt_cases ty h with ⟨id, hm⟩ | ⟨e, hc⟩
    · left
      refine ⟨id, ?_⟩
      have hI' : PoolInv (s.attemptStep b t ty) := pool_inv_step (max := max) hI (b, .attempt t ty)
      have hn : t ∉ ((s.attemptStep b t ty).pool b).held :=
        fun hh => held_not_mapped hI' hh b hm rfl
      have : ∀ k, (s.attemptStep b t ty).run max (List.replicate k (b, .attempt t ty)) =
          s.attemptStep b t ty := by
        intro k
        induction k with
        | zero => rfl
        | succ k ih =>
          rw [List.replicate_succ]
          show Threads.run max ((s.attemptStep b t ty).attemptStep b t ty) _ = _
          rw [attempt_not_held ty hn, ih]
      rw [this]; exact hm
    · rw [e]
      have hI' : PoolInv { s with counter := s.counter + 1 } :=
        ⟨hI.once, hI.old, hI.nonzero, hI.distinct, hI.own⟩
      rcases attempts b t ty n hI' h with h1 | h1
      · exact Or.inl h1
      · right
        intro x hx
        rcases List.mem_cons.1 hx with rfl | hx
        · exact hc
        · exact h1 x hx

/-! ### Before the counter wraps around -/

structure BeforeWrap (s : Threads) (n : Nat) : Prop where
  counter : s.counter.toNat ≤ n + 1
  below : ∀ b, ∀ e ∈ (s.pool b).map, e.2.1.toNat < s.counter.toNat
  apart : ∀ e ∈ (s.pool false).map, ∀ e' ∈ (s.pool true).map, e.2.1 ≠ e'.2.1

/-- Steps that register nothing. -/
theorem before_sub {s s' : Threads} {n : Nat} (h : BeforeWrap s n)
    (hc : s'.counter = s.counter) (hm : ∀ b, ∀ e ∈ (s'.pool b).map, e ∈ (s.pool b).map) :
    BeforeWrap s' (n + 1) :=
  ⟨by rw [hc]; have := h.counter; omega, fun b e he => by rw [hc]; exact h.below b e (hm b e he),
    fun e he e' he' => h.apart e (hm _ e he) e' (hm _ e' he')⟩

theorem setPool_map_sub {s : Threads} {b : Bool} {p : Pool}
    (h : ∀ e ∈ p.map, e ∈ (s.pool b).map) :
    ∀ b', ∀ e ∈ ((s.setPool b p).pool b').map, e ∈ (s.pool b').map := by
  intro b' e he
  by_cases hb : b' = b
  · subst hb; rw [setPool_same] at he; exact h e he
  · rw [setPool_other _ _ hb] at he; exact he

theorem before_step {max : Nat} {s : Threads} {n : Nat} (h : BeforeWrap s n)
    (hn : n + 2 < 2 ^ 32) (ev : Bool × PoolEv) : BeforeWrap (s.step max ev) (n + 1) := by
  obtain ⟨b, ev⟩ := ev
  cases ev with
  | pop =>
    simp only [Threads.step, Threads.popStep]
    split
    · exact before_sub h rfl (setPool_map_sub fun e he => he)
    · exact before_sub h rfl (setPool_map_sub (s := s) (b := b) fun e he => he)
  | attempt t ty =>
    simp only [Threads.step, Threads.attemptStep]
    have hc := h.counter
    have hc1 : (s.counter + 1).toNat = s.counter.toNat + 1 := by
      simp only [UInt64.toNat_add, UInt64.toNat_one]; omega
    have hid : s.counter.toUInt32.toNat = s.counter.toNat := by
      simp only [UInt64.toNat_toUInt32]; omega
    split
    · split
      · refine ⟨?_, ?_, h.apart⟩
        · show (s.counter + 1).toNat ≤ _
          omega
        · intro b e he
          show _ < (s.counter + 1).toNat
          have := h.below b e he
          omega
      · have hmem : ∀ b', ∀ e ∈ ((Threads.setPool { s with counter := s.counter + 1 } b
            { s.pool b with
              map := (ty, s.counter.toUInt32, t) :: (s.pool b).map
              held := (s.pool b).held.erase t }).pool b').map,
            e ∈ (s.pool b').map ∨ (b' = b ∧ e.2.1 = s.counter.toUInt32) := by
          intro b' e he
          by_cases hb : b' = b
          · subst hb
            rw [setPool_same] at he
            rcases List.mem_cons.1 he with rfl | he
            · exact Or.inr ⟨rfl, rfl⟩
            · exact Or.inl he
          · rw [setPool_other _ _ hb] at he
            exact Or.inl he
        refine ⟨?_, ?_, ?_⟩
        · show (s.counter + 1).toNat ≤ _
          omega
        · intro b' e he
          show _ < (s.counter + 1).toNat
          rcases hmem b' e he with he | ⟨-, he⟩
          · have := h.below b' e he
            omega
          · rw [he]; omega
        · intro e he e' he' heq
          have heq' : e.2.1.toNat = e'.2.1.toNat := by rw [heq]
          rcases hmem _ e he with h1 | ⟨h1, h2⟩ <;> rcases hmem _ e' he' with h3 | ⟨h3, h4⟩
          · exact h.apart e h1 e' h3 heq
          · have := h.below _ e h1
            rw [h4] at heq'
            omega
          · have := h.below _ e' h3
            rw [h2] at heq'
            omega
          · rw [← h1] at h3; cases h3
    · exact before_sub h rfl fun _ _ he => he
  | erase t =>
    simp only [Threads.step, Threads.eraseStep]
    split
    · exact before_sub h rfl fun _ _ he => he
    · exact before_sub h rfl
        (setPool_map_sub (s := s) (b := b) fun e he => List.mem_of_mem_eraseP he)
  | push t =>
    simp only [Threads.step, Threads.pushStep]
    split
    · exact before_sub h rfl (setPool_map_sub fun e he => he)
    · exact before_sub h rfl fun _ _ he => he
  | shutdown =>
    exact before_sub h rfl (setPool_map_sub fun e he => by cases he)

theorem before_run {max : Nat} (evs : List (Bool × PoolEv)) : ∀ {s : Threads} {n : Nat},
    BeforeWrap s n → n + evs.length + 2 ≤ 2 ^ 32 →
    BeforeWrap (s.run max evs) (n + evs.length) := by
  induction evs with
  | nil => intro s n h _; exact h
  | cons ev evs ih =>
    intro s n h hn
    simp only [List.length_cons] at hn ⊢
    have := ih (before_step (max := max) h (by omega) ev) (by omega)
    rw [show n + (evs.length + 1) = n + 1 + evs.length by omega]
    exact this

/-! ### Going round -/

/-- One thread of the pool for requests that is taken, registered, cleaned up and put back; if
the counter is at a multiple of 2³², only one attempt. -/
def round (c : UInt64) : List (Bool × PoolEv) :=
  if c.toUInt32 = 0 then [(false, .attempt 1 0)]
  else [(false, .attempt 1 0), (false, .erase 1), (false, .push 1), (false, .pop)]

def rounds (c : UInt64) : Nat → List (Bool × PoolEv)
  | 0 => []
  | n + 1 => round c ++ rounds (c + 1) n

/-- Thread 0 runs in the other pool with id 1; thread 1 is about to be registered. -/
structure Going (s : Threads) (c : UInt64) : Prop where
  counter : s.counter = c
  other : (s.pool true).map = [(0, 1, 0)]
  map : (s.pool false).map = []
  stack : (s.pool false).stack = []
  held : (s.pool false).held = [1]
  leaving : (s.pool false).leaving = []

theorem going_round {s : Threads} {c : UInt64} (h : Going s c) :
    Going (s.run 1 (round c)) (c + 1) := by
  unfold round
  have hc := h.counter
  subst hc
  split
  · rename_i h0
    simp only [Threads.run, List.foldl_cons, List.foldl_nil, Threads.step, Threads.attemptStep,
      h.held, h0]
    exact ⟨rfl, h.other, h.map, h.stack, h.held, h.leaving⟩
  · rename_i h0
    simp only [Threads.run, List.foldl_cons, List.foldl_nil, Threads.step, Threads.attemptStep,
      Threads.eraseStep, Threads.pushStep, Threads.popStep, Threads.setPool, h.held, h.map, h.stack,
      h.leaving]
    simp only [List.contains_cons, List.contains_nil, beq_self_eq_true, Bool.or_false, if_true,
      List.any_nil, beq_iff_eq, h0, if_false, List.find?_cons, Bool.and_self, List.eraseP_cons,
      List.erase_cons_head, List.length_nil, Nat.lt_add_one, cond_true]
    exact ⟨rfl, h.other, rfl, rfl, rfl, rfl⟩

theorem going_rounds (n : Nat) : ∀ {s : Threads} {c : UInt64}, Going s c →
    Going (s.run 1 (rounds c n)) (c + UInt64.ofNat n) := by
  induction n with
  | zero =>
    intro s c h
    have : c + UInt64.ofNat 0 = c := by
      apply UInt64.toNat_inj.1
      simp
    rw [this]; exact h
  | succ n ih =>
    intro s c h
    have := ih (going_round h)
    have e : c + 1 + UInt64.ofNat n = c + UInt64.ofNat (n + 1) := by
      apply UInt64.toNat_inj.1
      simp only [UInt64.toNat_add, UInt64.toNat_one, UInt64.toNat_ofNat']
      omega
    rw [e] at this
    unfold rounds
    show Going (List.foldl _ _ _) _
    rw [List.foldl_append]
    exact this

end Flare
