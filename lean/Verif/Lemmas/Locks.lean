import Verif.Spec.Locks

/-! Lemmas on locks. -/
namespace Flare

theorem lockAfter_append (a b : List LockAct) (h : List (Nat × Bool)) :
    lockAfter h (a ++ b) = (lockAfter h a).bind (fun h' => lockAfter h' b) := by
  induction a generalizing h with
  | nil => rfl
  | cons x a ih =>
    cases x <;> simp only [List.cons_append, lockAfter] <;> split <;> simp_all

theorem lockAfter_then {a b : List LockAct} {h h' : List (Nat × Bool)}
    (ha : lockAfter h a = some h') : lockAfter h (a ++ b) = lockAfter h' b := by
  rw [lockAfter_append, ha]; rfl

theorem lockAfter_cache (n : Nat) (cache : List Bool) (h : List (Nat × Bool))
    (hb : ∀ x ∈ h, x.1 < cacheLock n) : lockAfter h (cacheActs n cache) = some h := by
  induction cache with
  | nil => rfl
  | cons w cache ih =>
    show lockAfter h ([.acq (cacheLock n) w, .use (cacheLock n) w, .rel (cacheLock n)] ++
      cacheActs n cache) = _
    rw [lockAfter_then (h' := h), ih]
    simp only [lockAfter, if_pos hb]
    rw [if_pos (by cases w <;> simp), if_pos ⟨_, List.mem_cons_self, rfl⟩]
    simp

theorem wellLocked_append {a b : List LockAct} (ha : WellLocked a) (hb : WellLocked b) :
    WellLocked (a ++ b) := by
  unfold WellLocked at *
  rw [lockAfter_then ha, hb]

theorem wellLocked_flatten (l : List (List LockAct)) (h : ∀ a ∈ l, WellLocked a) :
    WellLocked l.flatten := by
  induction l with
  | nil => rfl
  | cons a l ih =>
    exact wellLocked_append (h a List.mem_cons_self)
      (ih fun b hb => h b (List.mem_cons_of_mem _ hb))

theorem wellLocked_write (n i : Nat) (cache : List Bool) (hi : i < n) :
    WellLocked (writeActs n i cache) := by
  unfold WellLocked writeActs
  rw [List.append_assoc, lockAfter_then (h' := [(slotLock i, true), (wholeLock, false)]),
    lockAfter_then (h' := [(slotLock i, true), (wholeLock, false)])]
  · simp [lockAfter, slotLock, wholeLock]
  · apply lockAfter_cache
    intro x hx
    simp only [List.mem_cons, List.not_mem_nil, or_false] at hx
    rcases hx with rfl | rfl <;> simp [cacheLock, slotLock, wholeLock] <;> omega
  · simp [lockAfter, slotLock, wholeLock]; omega

theorem wellLocked_read (i : Nat) : WellLocked (readActs i) := by
  simp [WellLocked, readActs, lockAfter]

/-- The slots `0` to `k - 1`, the last one first, held for writing. -/
def slotsHeld (k : Nat) : List (Nat × Bool) := (List.range k).reverse.map fun i => (slotLock i, true)

theorem slotsHeld_succ (k : Nat) : slotsHeld (k + 1) = (slotLock k, true) :: slotsHeld k := by
  simp [slotsHeld, List.range_succ]

theorem mem_slotsHeld {k : Nat} {x : Nat × Bool} :
    x ∈ slotsHeld k ↔ ∃ i, i < k ∧ x = (slotLock i, true) := by
  simp [slotsHeld, eq_comm]

theorem lockAfter_take (k : Nat) :
    lockAfter [(wholeLock, true)] ((List.range k).map (fun i => .acq (slotLock i) true)) =
      some (slotsHeld k ++ [(wholeLock, true)]) := by
  induction k with
  | zero => rfl
  | succ k ih =>
    rw [List.range_succ, List.map_append, lockAfter_then ih, slotsHeld_succ]
    simp only [List.map_cons, List.map_nil, lockAfter]
    rw [if_pos]
    · rfl
    · intro h hh
      rcases List.mem_append.mp hh with hh | hh
      · obtain ⟨i, hi, rfl⟩ := mem_slotsHeld.mp hh
        simp [slotLock]; omega
      · simp only [List.mem_cons, List.not_mem_nil, or_false] at hh
        subst hh; simp [slotLock, wholeLock]; omega

theorem lockAfter_uses (held : List (Nat × Bool)) (l : List Nat)
    (h : ∀ i ∈ l, (slotLock i, true) ∈ held) :
    lockAfter held (l.map (fun i => .use (slotLock i) true)) = some held := by
  induction l with
  | nil => rfl
  | cons i l ih =>
    simp only [List.map_cons, lockAfter]
    rw [if_pos (Or.inl (h i List.mem_cons_self)), ih fun j hj => h j (List.mem_cons_of_mem _ hj)]

theorem lockAfter_release (k : Nat) :
    lockAfter (slotsHeld k ++ [(wholeLock, true)])
      ((List.range k).reverse.map (fun i => .rel (slotLock i))) = some [(wholeLock, true)] := by
  induction k with
  | zero => rfl
  | succ k ih =>
    rw [slotsHeld_succ, List.range_succ, List.reverse_append]
    simp only [List.reverse_cons, List.reverse_nil, List.nil_append, List.cons_append,
      List.map_cons, lockAfter]
    rw [if_pos ⟨_, List.mem_cons_self, rfl⟩]
    simpa using ih

theorem wellLocked_truncate (n : Nat) : WellLocked (truncateActs n) := by
  unfold WellLocked truncateActs
  rw [List.append_assoc, List.append_assoc, List.append_assoc, List.append_assoc, List.append_assoc,
    lockAfter_then (h' := [(wholeLock, true)]) (by simp [lockAfter]),
    lockAfter_then (lockAfter_take n),
    lockAfter_then (h' := slotsHeld n ++ [(wholeLock, true)]) (by simp [lockAfter]),
    lockAfter_then (lockAfter_uses _ _ _), lockAfter_then (lockAfter_cache _ _ _ _),
    lockAfter_then (lockAfter_release n)]
  · simp [lockAfter]
  · intro x hx
    rcases List.mem_append.mp hx with hh | hh
    · obtain ⟨i, hi, rfl⟩ := mem_slotsHeld.mp hh
      simp [slotLock, cacheLock]; omega
    · simp only [List.mem_cons, List.not_mem_nil, or_false] at hh
      subst hh; simp [cacheLock, wholeLock]; omega
  · intro i hi
    exact List.mem_append.mpr (Or.inl (mem_slotsHeld.mpr ⟨i, List.mem_range.mp hi, rfl⟩))

theorem wellLocked_cmd (n : Nat) (c : StoCmd) (h : c.InRange n) : WellLocked (c.acts n) := by
  cases c with
  | write i c => exact wellLocked_write n i c h
  | incrExpired i c c' =>
    exact wellLocked_append (wellLocked_write n i c h) (wellLocked_write n i c' h)
  | get i => exact wellLocked_read i
  | getExpired i c => exact wellLocked_append (wellLocked_read i) (wellLocked_write n i c h)
  | truncate => exact wellLocked_truncate n
  | iterMutex => show WellLocked [_, _, _]; decide
  | iterNext => show WellLocked [_, _, _, _, _, _]; decide

/-! ### Threads -/

/-- Every thread goes on in order and ends without locks. -/
def ThreadsOk (s : List LThread) : Prop := ∀ t ∈ s, lockAfter t.held t.rest = some []

/-- No lock is held by two threads unless both hold it for reading. -/
def LockExcl (s : List LThread) : Prop :=
  ∀ (i j : Nat) (t u : LThread), i ≠ j → s[i]? = some t → s[j]? = some u → ∀ a ∈ t.held, ∀ b ∈ u.held, a.1 = b.1 →
    a.2 = false ∧ b.2 = false

theorem lockAfter_next {t : LThread} {h : List (Nat × Bool)} (ht : lockAfter t.held t.rest = some h) :
    lockAfter t.next.held t.next.rest = some h := by
  obtain ⟨held, rest⟩ := t
  cases rest with
  | nil => exact ht
  | cons a r =>
    cases a <;> simp only [LThread.next, lockAfter] at ht ⊢ <;> split at ht <;> first
      | exact ht
      | cases ht

theorem mem_set_self_or {α} {l : List α} {i : Nat} {a x : α} (h : x ∈ l.set i a) : x ∈ l ∨ x = a :=
  List.mem_or_eq_of_mem_set h

theorem threadsOk_step {p : Bool} {s s' : List LThread} (h : ThreadsOk s) (st : LockStep p s s') :
    ThreadsOk s' := by
  obtain ⟨i, t, a, r, ht, hr, he, rfl⟩ := st
  intro u hu
  rcases mem_set_self_or hu with hu | rfl
  · exact h u hu
  · exact lockAfter_next (h t (List.mem_of_getElem? ht))

/-- Held locks stay, or the thread took the next one. -/
theorem next_held {t : LThread} {a : LockAct} {r : List LockAct} (hr : t.rest = a :: r)
    {x : Nat × Bool} (hx : x ∈ t.next.held) : x ∈ t.held ∨ a = .acq x.1 x.2 := by
  obtain ⟨held, rest⟩ := t
  simp only at hr; subst hr
  cases a with
  | acq l w =>
    simp only [LThread.next, List.mem_cons] at hx
    rcases hx with rfl | hx
    · exact Or.inr rfl
    · exact Or.inl hx
  | rel l => exact Or.inl (List.mem_of_mem_eraseP hx)
  | use l w => exact Or.inl hx

theorem lockExcl_step {p : Bool} {s s' : List LThread} (h : LockExcl s) (st : LockStep p s s') :
    LockExcl s' := by
  obtain ⟨i, t, a, r, ht, hr, he, rfl⟩ := st
  have key : ∀ j u, i ≠ j → s[j]? = some u → ∀ x ∈ t.next.held, ∀ y ∈ u.held, x.1 = y.1 →
      x.2 = false ∧ y.2 = false := by
    intro j u hij hu x hx y hy hxy
    rcases next_held hr hx with hx | rfl
    · exact h i j t u hij ht hu x hx y hy hxy
    · exact he.1 u (List.mem_of_getElem? hu) y hy hxy.symm
  intro j k u v hjk hu hv x hx y hy hxy
  have hi : i < s.length := (List.getElem?_eq_some_iff.mp ht).1
  rw [List.getElem?_set] at hu hv
  by_cases hij : i = j
  · subst hij
    rw [if_pos rfl, if_pos hi] at hu; cases hu
    rw [if_neg hjk] at hv
    exact key k v hjk hv x hx y hy hxy
  · rw [if_neg hij] at hu
    by_cases hik : i = k
    · subst hik
      rw [if_pos rfl, if_pos hi] at hv; cases hv
      exact (key j u hij hu y hy x hx hxy.symm).symm
    · rw [if_neg hik] at hv
      exact h j k u v hjk hu hv x hx y hy hxy

theorem threadsOk_run {p : Bool} {s s' : List LThread} (h : ThreadsOk s) (r : LockRun p s s') :
    ThreadsOk s' := by
  induction r with
  | refl => exact h
  | step st _ ih => exact ih (threadsOk_step h st)

theorem lockExcl_run {p : Bool} {s s' : List LThread} (h : LockExcl s) (r : LockRun p s s') :
    LockExcl s' := by
  induction r with
  | refl => exact h
  | step st _ ih => exact ih (lockExcl_step h st)

theorem next_length {t : LThread} {a : LockAct} {r : List LockAct} (hr : t.rest = a :: r) :
    t.next.rest = r := by
  obtain ⟨held, rest⟩ := t
  simp only at hr; subst hr
  cases a <;> rfl

theorem lock_sum_set (f : LThread → Nat) (s : List LThread) (i : Nat) (t u : LThread)
    (ht : s[i]? = some t) (k : Nat) (hf : f t = f u + k) :
    (s.map f).sum = ((s.set i u).map f).sum + k := by
  induction s generalizing i with
  | nil => simp at ht
  | cons x s ih =>
    cases i with
    | zero => simp at ht; subst ht; simp; omega
    | succ i =>
      simp only [List.getElem?_cons_succ] at ht
      have := ih i ht
      simp only [List.set_cons_succ, List.map_cons, List.sum_cons]; omega

theorem lockWork_step {p : Bool} {s s' : List LThread} (st : LockStep p s s') :
    lockWork s = lockWork s' + 1 := by
  obtain ⟨i, t, a, r, ht, hr, he, rfl⟩ := st
  apply lock_sum_set _ _ _ _ _ ht
  rw [hr, next_length hr]; rfl

/-- The number a thread waits for. -/
def LThread.wants (t : LThread) : Nat :=
  match t.rest with
  | .acq l _ :: _ => l
  | _ => 0

theorem exists_max_wants (s : List LThread) (P : LThread → Prop) (h : ∃ t ∈ s, P t) :
    ∃ t ∈ s, P t ∧ ∀ u ∈ s, P u → u.wants ≤ t.wants := by
  classical
  induction s with
  | nil => obtain ⟨_, h, _⟩ := h; cases h
  | cons x s ih =>
    by_cases hs : ∃ t ∈ s, P t
    · obtain ⟨t, ht, hp, hm⟩ := ih hs
      by_cases hx : P x ∧ t.wants ≤ x.wants
      · refine ⟨x, List.mem_cons_self, hx.1, fun u hu hpu => ?_⟩
        rcases List.mem_cons.mp hu with rfl | hu
        · exact Nat.le_refl _
        · exact Nat.le_trans (hm u hu hpu) hx.2
      · refine ⟨t, List.mem_cons_of_mem _ ht, hp, fun u hu hpu => ?_⟩
        rcases List.mem_cons.mp hu with rfl | hu
        · by_cases hle : t.wants ≤ u.wants
          · exact absurd ⟨hpu, hle⟩ hx
          · omega
        · exact hm u hu hpu
    · obtain ⟨t, ht, hp⟩ := h
      rcases List.mem_cons.mp ht with rfl | ht
      · refine ⟨t, List.mem_cons_self, hp, fun u hu hpu => ?_⟩
        rcases List.mem_cons.mp hu with rfl | hu
        · exact Nat.le_refl _
        · exact absurd ⟨u, hu, hpu⟩ hs
      · exact absurd ⟨t, ht, hp⟩ hs

/-- A thread with something left to do exists and somebody can go on. -/
theorem lock_progress (p : Bool) (s : List LThread) (h : ThreadsOk s) (hn : ¬ AllDone s) :
    ∃ s', LockStep p s s' := by
  have go : ∀ t ∈ s, ∀ a r, t.rest = a :: r → lockEnabled p s a → ∃ s', LockStep p s s' := by
    intro t ht a r hr he
    obtain ⟨i, hi⟩ := List.getElem?_of_mem ht
    exact ⟨_, i, t, a, r, hi, hr, he, rfl⟩
  have ex : ∃ t ∈ s, t.rest ≠ [] := by
    apply Classical.byContradiction
    intro hc
    exact hn fun t ht => Classical.byContradiction fun hr => hc ⟨t, ht, hr⟩
  obtain ⟨t, ht, hne, hm⟩ := exists_max_wants s (fun t => t.rest ≠ []) ex
  -- nobody holds what the thread with the largest wish wants
  have free : ∀ l w r, t.rest = .acq l w :: r → ∀ u ∈ s, ∀ x ∈ u.held, x.1 ≠ l ∨
      ∃ a r', u.rest = a :: r' ∧ ∀ l w, a ≠ .acq l w := by
    intro l w r hr u hu x hx
    have hu' := h u hu
    cases hur : u.rest with
    | nil => rw [hur] at hu'; simp only [lockAfter, Option.some.injEq] at hu'; rw [hu'] at hx; cases hx
    | cons a r' =>
      cases a with
      | acq l' w' =>
        left
        rw [hur] at hu'
        simp only [lockAfter] at hu'
        split at hu'
        · rename_i hlt
          have h1 := hlt x hx
          have h2 := hm u hu (by rw [hur]; exact List.cons_ne_nil _ _)
          simp only [LThread.wants, hur, hr] at h2
          omega
        · cases hu'
      | rel l' => exact Or.inr ⟨_, _, rfl, fun _ _ => nofun⟩
      | use l' w' => exact Or.inr ⟨_, _, rfl, fun _ _ => nofun⟩
  -- somebody releases or uses a lock
  by_cases hrel : ∃ u ∈ s, ∃ a r', u.rest = a :: r' ∧ ∀ l w, a ≠ .acq l w
  · obtain ⟨u, hu, a, r', hr, ha⟩ := hrel
    refine go u hu a r' hr ?_
    cases a with
    | acq l w => exact absurd rfl (ha l w)
    | rel l => trivial
    | use l w => trivial
  · cases htr : t.rest with
    | nil => exact absurd htr hne
    | cons a r =>
      cases a with
      | rel l => exact absurd ⟨t, ht, _, _, htr, fun _ _ => nofun⟩ hrel
      | use l w => exact absurd ⟨t, ht, _, _, htr, fun _ _ => nofun⟩ hrel
      | acq l w =>
        have hfree : ∀ u ∈ s, ∀ x ∈ u.held, x.1 ≠ l := fun u hu x hx =>
          (free l w r htr u hu x hx).resolve_right fun hc => hrel ⟨u, hu, hc⟩
        by_cases hw : ∃ u ∈ s, u.rest.head? = some (.acq l true)
        · obtain ⟨u, hu, hh⟩ := hw
          cases hur : u.rest with
          | nil => rw [hur] at hh; cases hh
          | cons b r' =>
            rw [hur] at hh; cases hh
            exact go u hu _ _ hur ⟨fun v hv x hx e => absurd e (hfree v hv x hx), fun _ => nofun⟩
        · exact go t ht _ _ htr ⟨fun v hv x hx e => absurd e (hfree v hv x hx),
            fun _ _ u hu e => hw ⟨u, hu, e⟩⟩

theorem lock_finish (p : Bool) (s : List LThread) (h : ThreadsOk s) :
    ∃ s', LockRun p s s' ∧ AllDone s' := by
  obtain ⟨m, hm⟩ : ∃ m, lockWork s = m := ⟨_, rfl⟩
  induction m generalizing s with
  | zero =>
    refine ⟨s, .refl s, fun t ht => ?_⟩
    apply Classical.byContradiction
    intro hne
    obtain ⟨s', st⟩ := lock_progress p s h (fun hd => hne (hd t ht))
    have := lockWork_step st
    omega
  | succ m ih =>
    by_cases hd : AllDone s
    · exact ⟨s, .refl s, hd⟩
    · obtain ⟨s', st⟩ := lock_progress p s h hd
      have := lockWork_step st
      obtain ⟨s'', r, hd'⟩ := ih s' (threadsOk_step h st) (by omega)
      exact ⟨s'', .step st r, hd'⟩

theorem storageThreads_ok (n : Nat) (cmds : List (List StoCmd))
    (h : ∀ l ∈ cmds, ∀ c ∈ l, c.InRange n) : ThreadsOk (storageThreads n cmds) := by
  intro t ht
  obtain ⟨l, hl, rfl⟩ := List.mem_map.mp ht
  apply wellLocked_flatten
  intro a ha
  obtain ⟨c, hc, rfl⟩ := List.mem_map.mp ha
  exact wellLocked_cmd n c (h l hl c hc)

theorem storageThreads_excl (n : Nat) (cmds : List (List StoCmd)) :
    LockExcl (storageThreads n cmds) := by
  intro i j t u hij ht hu a ha
  have := List.mem_of_getElem? ht
  obtain ⟨l, hl, rfl⟩ := List.mem_map.mp this
  cases ha

end Flare
