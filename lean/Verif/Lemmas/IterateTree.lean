import Verif.Lemmas.Iterate

namespace Flare

/-! ### Cursors in a B+ tree -/

theorem Leaves.keys_append (a b : Leaves) : Leaves.keys (a ++ b) = Leaves.keys a ++ Leaves.keys b := by
  simp [Leaves.keys]

theorem Leaves.keys_cons (l : Leaf) (t : Leaves) : Leaves.keys (l :: t) = l.keys ++ Leaves.keys t := by
  simp [Leaves.keys]

theorem Leaves.tail_none {t : Leaves} {id : Nat} : t.tail id = [] ↔ ∀ l ∈ t, l.id ≠ id := by
  induction t with
  | nil => exact ⟨fun _ l hl => (nomatch hl), fun _ => rfl⟩
  | cons a t ih =>
    simp only [Leaves.tail] at ih ⊢
    by_cases h : a.id = id
    · rw [List.dropWhile_cons_of_neg (by simpa using h)]
      exact ⟨fun e => (nomatch e), fun e => absurd h (e a List.mem_cons_self)⟩
    · rw [List.dropWhile_cons_of_pos (by simpa using h), ih]
      exact ⟨fun g l hl => (List.mem_cons.1 hl).elim (fun e => e ▸ h) (g l), fun g l hl => g l (List.mem_cons_of_mem _ hl)⟩

theorem Leaves.tail_at {pre ls : Leaves} {l : Leaf} {id : Nat} (h : ∀ x ∈ pre, x.id ≠ id) (hl : l.id = id) :
    Leaves.tail (pre ++ l :: ls) id = l :: ls := by
  induction pre with
  | nil => simp [Leaves.tail, hl]
  | cons a pre ih =>
    have ha := h a List.mem_cons_self
    have := ih (fun x hx => h x (List.mem_cons_of_mem _ hx))
    simp only [Leaves.tail, List.cons_append] at this ⊢
    rw [List.dropWhile_cons_of_pos (by simpa using ha)]
    exact this

theorem Leaves.tail_some {t : Leaves} {id : Nat} {l : Leaf} {ls : Leaves} (h : t.tail id = l :: ls) :
    ∃ pre, t = pre ++ l :: ls ∧ l.id = id ∧ ∀ x ∈ pre, x.id ≠ id := by
  refine ⟨t.takeWhile fun l => decide (l.id ≠ id), ?_, ?_, ?_⟩
  · rw [← h]; exact (List.takeWhile_append_dropWhile).symm
  · have := List.head_dropWhile_not (fun l : Leaf => decide (l.id ≠ id)) (l := t) (by
      simp only [Leaves.tail] at h; rw [h]; simp)
    simp only [Leaves.tail] at h
    simp only [h, List.head_cons] at this
    simpa using this
  · intro x hx
    have := List.all_eq_true.1 (List.all_takeWhile (p := fun l : Leaf => decide (l.id ≠ id)) (l := t)) x hx
    simpa using this

theorem Leaves.after_at {pre ls : Leaves} {l : Leaf} {id : Nat} (h : ∀ x ∈ pre, x.id ≠ id) (hl : l.id = id) (i : Nat) :
    Leaves.after (pre ++ l :: ls) (.at id i) = l.keys.drop (i + 1) ++ Leaves.keys ls := by
  simp only [Leaves.after, Leaves.tail_at h hl]

theorem Leaves.after_none {t : Leaves} {id : Nat} (h : t.tail id = []) (i : Nat) : t.after (.at id i) = [] := by
  simp only [Leaves.after, h]

theorem Leaves.ids_pre {pre ls : Leaves} {l : Leaf} (h : ((pre ++ l :: ls).map (·.id)).Nodup) : ∀ x ∈ pre, x.id ≠ l.id := by
  intro x hx e
  rw [List.map_append, List.nodup_append] at h
  exact h.2.2 x.id (List.mem_map_of_mem hx) l.id (by simp) e

theorem Leaves.first_after (pre ls : Leaves) (h : ((pre ++ ls).map (·.id)).Nodup) :
    match Leaves.first ls with
    | none => Leaves.keys ls = []
    | some (k, p) => Leaves.keys ls = k :: Leaves.after (pre ++ ls) p ∧ ∃ a l rest b, ls = a ++ l :: b ∧
        Leaves.keys a = [] ∧ l.keys = k :: rest ∧ p = .at l.id 0 := by
  induction ls generalizing pre with
  | nil => rfl
  | cons l ls ih =>
    cases hk : l.keys with
    | nil =>
      have e : pre ++ l :: ls = (pre ++ [l]) ++ ls := by simp
      have := ih (pre ++ [l]) (by rw [← e]; exact h)
      rw [← e] at this
      simp only [Leaves.first, hk, Leaves.keys_cons, List.nil_append]
      split
      · rename_i hn; simpa only [hn] using this
      · rename_i k p hn
        simp only [hn] at this
        obtain ⟨h1, a, l', rest, b, h2, h3, h4, h5⟩ := this
        refine ⟨h1, l :: a, l', rest, b, by rw [h2]; rfl, by rw [Leaves.keys_cons, hk, h3]; rfl, h4, h5⟩
    | cons k ks =>
      simp only [Leaves.first, hk]
      refine ⟨?_, [], l, ks, ls, rfl, rfl, hk, rfl⟩
      rw [Leaves.after_at (Leaves.ids_pre h) rfl, Leaves.keys_cons, hk]
      rfl

/-- The next record is the first one behind the cursor. -/
theorem Leaves.next_after {t : Leaves} (h : (t.map (·.id)).Nodup) (p : TreePos) :
    match t.next p with
    | none => t.after p = []
    | some (k, p') => t.after p = k :: t.after p' := by
  cases p with
  | start =>
    have := Leaves.first_after [] t h
    simp only [List.nil_append] at this
    simp only [Leaves.next, Leaves.after]
    split
    · rename_i hn; simpa only [hn] using this
    · rename_i k p hn; simp only [hn] at this; exact this.1
  | lost => rfl
  | «at» id i =>
    cases ht : t.tail id with
    | nil => simp only [Leaves.next, ht, Leaves.after_none ht]
    | cons l ls =>
      obtain ⟨pre, rfl, hl, hp⟩ := Leaves.tail_some ht
      rw [Leaves.after_at hp hl]
      cases hk : l.keys[i + 1]? with
      | some k =>
        simp only [Leaves.next, ht, hk]
        rw [Leaves.after_at hp hl]
        obtain ⟨hlt, e⟩ := List.getElem?_eq_some_iff.1 hk
        rw [List.drop_eq_getElem_cons hlt, e]
        rfl
      | none =>
        have hd : l.keys.drop (i + 1) = [] := List.drop_eq_nil_of_le (List.getElem?_eq_none_iff.1 hk)
        rw [hd, List.nil_append]
        have e : pre ++ l :: ls = (pre ++ [l]) ++ ls := by simp
        have := Leaves.first_after (pre ++ [l]) ls (by rw [← e]; exact h)
        rw [← e] at this
        simp only [Leaves.next, ht, hk]
        split
        · rename_i hn; simpa only [hn] using this
        · rename_i k p hn; simp only [hn] at this; exact this.1

/-! ### Changes of a B+ tree -/

theorem map_same_ids (g : Leaf → Leaf) (hg : ∀ l, (g l).id = l.id) (t : Leaves) : (t.map g).map (·.id) = t.map (·.id) := by
  rw [List.map_map]
  exact List.map_congr_left (fun l _ => hg l)

theorem Leaves.put_keys (id p : Nat) (k : Bytes) (t : Leaves) (h : (t.map (·.id)).Nodup) :
    (Leaves.keys (t.map fun l => if l.id = id then { l with keys := l.keys.take p ++ k :: l.keys.drop p } else l)).Perm
      (if id ∈ t.map (·.id) then k :: t.keys else t.keys) := by
  induction t with
  | nil => simp [Leaves.keys]
  | cons l t ih =>
    rw [List.map_cons, List.nodup_cons] at h
    obtain ⟨h1, h2⟩ := h
    have ih := ih h2
    by_cases hl : l.id = id
    · have hn : id ∉ t.map (·.id) := hl ▸ h1
      rw [if_neg hn] at ih
      have hin : id ∈ (l :: t).map (·.id) := by simp [hl]
      rw [if_pos hin, List.map_cons, if_pos hl, Leaves.keys_cons, Leaves.keys_cons]
      have h3 : (l.keys.take p ++ k :: l.keys.drop p).Perm (k :: l.keys) :=
        List.perm_middle.trans (by rw [List.take_append_drop])
      exact h3.append ih
    · rw [List.map_cons, if_neg hl, Leaves.keys_cons, Leaves.keys_cons]
      by_cases hm : id ∈ t.map (·.id)
      · rw [if_pos hm] at ih
        rw [if_pos (by simp only [List.map_cons, List.mem_cons]; exact Or.inr hm)]
        exact (ih.append_left l.keys).trans List.perm_middle
      · rw [if_neg hm] at ih
        rw [if_neg (by simp only [List.map_cons, List.mem_cons, not_or]; exact ⟨fun e => hl e.symm, hm⟩)]
        exact ih.append_left l.keys

theorem Leaves.out_keys (t : Leaves) (k : Bytes) : (t.out k).keys = t.keys.filter fun x => decide (x ≠ k) := by
  induction t with
  | nil => rfl
  | cons l t ih =>
    simp only [Leaves.out, List.map_cons, Leaves.keys_cons, List.filter_append] at ih ⊢
    rw [ih]

theorem Leaves.split_same (id n new : Nat) (t : Leaves) (h : id ∉ t.map (·.id)) :
    (t.flatMap fun l => if l.id = id then [⟨id, l.keys.take n⟩, ⟨new, l.keys.drop n⟩] else [l]) = t := by
  induction t with
  | nil => rfl
  | cons l t ih =>
    simp only [List.map_cons, List.mem_cons, not_or] at h
    rw [List.flatMap_cons, if_neg (fun e => h.1 e.symm), ih h.2]
    rfl

theorem Leaves.split_keys (id n new : Nat) (t : Leaves) :
    Leaves.keys (t.flatMap fun l => if l.id = id then [⟨id, l.keys.take n⟩, ⟨new, l.keys.drop n⟩] else [l]) = t.keys := by
  induction t with
  | nil => rfl
  | cons l t ih =>
    rw [List.flatMap_cons, Leaves.keys_append, ih, Leaves.keys_cons]
    congr 1
    split
    · simp [Leaves.keys]
    · simp [Leaves.keys]

theorem Leaves.split_ids (id n new : Nat) (t : Leaves) (h : (t.map (·.id)).Nodup) (hn : new ∉ t.map (·.id)) :
    ((t.flatMap fun l => if l.id = id then [(⟨id, l.keys.take n⟩ : Leaf), ⟨new, l.keys.drop n⟩] else [l]).map
      (·.id)).Nodup ∧
    ∀ x ∈ (t.flatMap fun l => if l.id = id then [(⟨id, l.keys.take n⟩ : Leaf), ⟨new, l.keys.drop n⟩] else [l]).map (·.id),
      x = new ∨ x ∈ t.map (·.id) := by
  induction t with
  | nil => exact ⟨List.nodup_nil, fun x hx => nomatch hx⟩
  | cons l t ih =>
    rw [List.map_cons, List.nodup_cons] at h
    simp only [List.map_cons, List.mem_cons, not_or] at hn
    obtain ⟨i1, i2⟩ := ih h.2 hn.2
    rw [List.flatMap_cons]
    by_cases hl : l.id = id
    · rw [if_pos hl, Leaves.split_same id n new t (hl ▸ h.1)]
      constructor
      · simp only [List.map_append, List.map_cons, List.map_nil, List.cons_append, List.nil_append, List.nodup_cons,
          List.mem_cons, not_or]
        exact ⟨⟨fun e => hn.1 (e.symm.trans hl.symm), hl ▸ h.1⟩, hn.2, h.2⟩
      · intro x hx
        simp only [List.map_append, List.map_cons, List.map_nil, List.cons_append, List.nil_append, List.mem_cons] at hx ⊢
        rcases hx with e | e | e
        · exact Or.inr (Or.inl (e.trans hl.symm))
        · exact Or.inl e
        · exact Or.inr (Or.inr e)
    · rw [if_neg hl]
      constructor
      · rw [List.map_append, List.map_cons, List.map_nil, List.singleton_append, List.nodup_cons]
        refine ⟨?_, i1⟩
        intro hx
        rcases i2 _ hx with e | e
        · exact hn.1 e.symm
        · exact h.1 e
      · intro x hx
        rw [List.map_append, List.map_cons, List.map_nil, List.singleton_append, List.mem_cons] at hx
        rw [List.map_cons, List.mem_cons]
        rcases hx with e | e
        · exact Or.inr (Or.inl e)
        · rcases i2 _ e with e | e
          · exact Or.inl e
          · exact Or.inr (Or.inr e)

theorem Leaves.drop_keys (t : Leaves) (id : Nat) :
    Leaves.keys (t.filter fun l => decide (l.id ≠ id) || !l.keys.isEmpty) = t.keys := by
  induction t with
  | nil => rfl
  | cons l t ih =>
    rw [List.filter_cons]
    split
    · rw [Leaves.keys_cons, Leaves.keys_cons, ih]
    · rename_i h
      rw [Leaves.keys_cons, ih]
      rw [Bool.or_eq_true, not_or] at h
      have : l.keys = [] := by simpa using h.2
      rw [this]; rfl

theorem Leaves.apply_ok {t : Leaves} (ht : t.Ok) (e : TreeEv) : (t.apply e).Ok := by
  obtain ⟨h1, h2⟩ := ht
  cases e with
  | put id p k =>
    simp only [Leaves.apply]
    split
    · exact ⟨h1, h2⟩
    · rename_i hk
      refine ⟨?_, ?_⟩
      · rw [map_same_ids _ (by intro l; split <;> rfl)]; exact h1
      · rw [(Leaves.put_keys id p k t h1).nodup_iff]
        split
        · exact List.nodup_cons.2 ⟨hk, h2⟩
        · exact h2
  | out k =>
    refine ⟨?_, ?_⟩
    · simp only [Leaves.apply, Leaves.out]
      rw [map_same_ids (fun l => { l with keys := l.keys.filter fun x => decide (x ≠ k) }) (fun l => rfl)]; exact h1
    · simp only [Leaves.apply, Leaves.out_keys]
      exact h2.sublist List.filter_sublist
  | split id n new =>
    simp only [Leaves.apply]
    split
    · exact ⟨h1, h2⟩
    · rename_i hn
      exact ⟨(Leaves.split_ids id n new t h1 hn).1, by rw [Leaves.split_keys]; exact h2⟩
  | drop id =>
    simp only [Leaves.apply]
    exact ⟨h1.sublist (List.filter_sublist.map _), by rw [Leaves.drop_keys]; exact h2⟩

theorem mem_drop_insert {x k : Bytes} {l : List Bytes} {n p : Nat} (h : x ∈ l.drop n) :
    x ∈ (l.take p ++ k :: l.drop p).drop n := by
  rcases Nat.lt_or_ge n p with hp | hp
  · rcases Nat.lt_or_ge l.length p with hl | hl
    · rw [List.take_of_length_le (by omega), List.drop_append]
      exact List.mem_append_left _ h
    · rw [List.drop_append]
      have e : l.drop n = (l.take p).drop n ++ l.drop p := by
        rw [← List.drop_append_of_le_length (l₂ := l.drop p) (by rw [List.length_take]; omega), List.take_append_drop]
      rw [e] at h
      rcases List.mem_append.1 h with h | h
      · exact List.mem_append_left _ h
      · have : n - (l.take p).length = 0 := by rw [List.length_take]; omega
        rw [this, List.drop_zero]
        exact List.mem_append_right _ (List.mem_cons_of_mem _ h)
  · have hl : n < l.length := by
      rcases Nat.lt_or_ge n l.length with h' | h'
      · exact h'
      · rw [List.drop_eq_nil_of_le h'] at h; exact nomatch h
    rw [List.drop_append, List.length_take, Nat.min_eq_left (by omega)]
    refine List.mem_append_right _ ?_
    obtain ⟨m, rfl⟩ : ∃ m, n = p + m := ⟨n - p, by omega⟩
    rw [Nat.add_sub_cancel_left, ← List.drop_drop] at *
    cases m with
    | zero => simp only [List.drop_zero] at *; exact List.mem_cons_of_mem _ h
    | succ m =>
      rw [List.drop_succ_cons]
      have : (l.drop p).drop (m + 1) <:+ (l.drop p).drop m := by
        rw [← List.drop_drop]
        exact List.drop_suffix _ _
      exact this.subset h

theorem mem_drop_filter {x y : Bytes} {l : List Bytes} {n : Nat} (h : x ∈ l.drop n) (hx : x ≠ y) (hy : y ∉ l.take n) :
    x ∈ (l.filter fun z => decide (z ≠ y)).drop n := by
  have hl : n < l.length := by
    rcases Nat.lt_or_ge n l.length with h' | h'
    · exact h'
    · rw [List.drop_eq_nil_of_le h'] at h; exact nomatch h
  have e : (l.filter fun z => decide (z ≠ y)) = l.take n ++ (l.drop n).filter fun z => decide (z ≠ y) := by
    conv => lhs; rw [← List.take_append_drop n l]
    rw [List.filter_append]
    congr 1
    refine List.filter_eq_self.2 ?_
    intro z hz
    simp only [decide_eq_true_eq]
    exact fun e => hy (e ▸ hz)
  have hlen : (l.take n).length = n := by rw [List.length_take]; omega
  rw [e, List.drop_append, hlen, Nat.sub_self, List.drop_zero]
  refine List.mem_append_right _ (List.mem_filter.2 ⟨h, by simpa using hx⟩)

theorem drop_filter_subset (l : List Bytes) (q : Bytes → Bool) (n : Nat) : ∀ x ∈ (l.filter q).drop n, x ∈ l.drop n := by
  induction l generalizing n with
  | nil => intro x hx; simp at hx
  | cons a l ih =>
    intro x hx
    cases n with
    | zero =>
      simp only [List.drop_zero] at *
      exact (List.mem_filter.1 hx).1
    | succ n =>
      rw [List.drop_succ_cons]
      rw [List.filter_cons] at hx
      split at hx
      · rw [List.drop_succ_cons] at hx; exact ih n x hx
      · have := ih (n + 1) x hx
        rw [← List.drop_drop] at this
        exact (List.drop_suffix 1 (l.drop n)).subset this

theorem Leaves.map_keys_mono {g : Leaf → Leaf} {t : Leaves} {x : Bytes} (hg : ∀ l ∈ t, x ∈ l.keys → x ∈ (g l).keys)
    (h : x ∈ t.keys) : x ∈ Leaves.keys (t.map g) := by
  obtain ⟨l, hl, hx⟩ := List.mem_flatMap.1 h
  exact List.mem_flatMap.2 ⟨g l, List.mem_map_of_mem hl, hg l hl hx⟩

/-- A record behind the cursor stays there if nothing harms. -/
theorem Leaves.after_keep {t : Leaves} (ht : t.Ok) {p : TreePos} {e : TreeEv} (he : e.Harmless t p) {x : Bytes}
    (hx : x ∈ t.after p) (hne : e ≠ .out x) : x ∈ (t.apply e).after p := by
  cases p with
  | lost => exact nomatch hx
  | start =>
    simp only [Leaves.after] at hx ⊢
    cases e with
    | put id q k =>
      simp only [Leaves.apply]
      split
      · exact hx
      · refine Leaves.map_keys_mono ?_ hx
        intro l _ h
        split
        · have := mem_drop_insert (k := k) (n := 0) (p := q) (by rw [List.drop_zero]; exact h)
          rwa [List.drop_zero] at this
        · exact h
    | out k =>
      simp only [Leaves.apply, Leaves.out_keys, List.mem_filter]
      exact ⟨hx, by simpa using fun e => hne (by rw [e])⟩
    | split id n new =>
      simp only [Leaves.apply]
      split
      · exact hx
      · rw [Leaves.split_keys]; exact hx
    | drop id => simp only [Leaves.apply, Leaves.drop_keys]; exact hx
  | «at» id i =>
    cases hta : t.tail id with
    | nil => rw [Leaves.after_none hta] at hx; exact nomatch hx
    | cons l ls =>
      obtain ⟨pre, rfl, hl, hp⟩ := Leaves.tail_some hta
      rw [Leaves.after_at hp hl] at hx
      cases e with
      | put id' q k =>
        simp only [Leaves.apply]
        split
        · rw [Leaves.after_at hp hl]; exact hx
        · rw [List.map_append, List.map_cons]
          rw [Leaves.after_at (id := id) (by
            intro y hy
            obtain ⟨y', hy', rfl⟩ := List.mem_map.1 hy
            have := hp y' hy'
            split <;> exact this) (by split <;> exact hl)]
          rcases List.mem_append.1 hx with hx | hx
          · refine List.mem_append_left _ ?_
            split
            · exact mem_drop_insert hx
            · exact hx
          · refine List.mem_append_right _ (Leaves.map_keys_mono ?_ hx)
            intro l' _ h
            split
            · have := mem_drop_insert (k := k) (n := 0) (p := q) (by rw [List.drop_zero]; exact h)
              rwa [List.drop_zero] at this
            · exact h
      | out k =>
        have hk : x ≠ k := fun e => hne (by rw [e])
        simp only [Leaves.apply, Leaves.out, List.map_append, List.map_cons]
        rw [Leaves.after_at (id := id) (by
            intro y hy
            obtain ⟨y', hy', rfl⟩ := List.mem_map.1 hy
            exact hp y' hy') (l := { l with keys := l.keys.filter fun x => decide (x ≠ k) }) hl]
        rcases List.mem_append.1 hx with hx | hx
        · refine List.mem_append_left _ (mem_drop_filter hx hk ?_)
          intro hkt
          have hnd := ht.2
          rw [Leaves.keys_append, Leaves.keys_cons] at hnd
          have hnd2 := (List.nodup_append.1 hnd).2.1
          rcases he with he | he
          · rw [Leaves.after_at hp hl] at he
            rw [List.nodup_append] at hnd2
            rcases List.mem_append.1 he with he | he
            · have := hnd2.1
              rw [← List.take_append_drop (i + 1) l.keys, List.nodup_append] at this
              exact this.2.2 k hkt k he rfl
            · exact hnd2.2.2 k (List.mem_of_mem_take hkt) k he rfl
          · refine he ?_
            rw [Leaves.keys_append, Leaves.keys_cons]
            exact List.mem_append_right _ (List.mem_append_left _ (List.mem_of_mem_take hkt))
        · refine List.mem_append_right _ ?_
          have := Leaves.out_keys ls k
          simp only [Leaves.out] at this
          rw [this, List.mem_filter]
          exact ⟨hx, by simpa using hk⟩
      | split id' n new =>
        simp only [Leaves.apply]
        split
        · rw [Leaves.after_at hp hl]; exact hx
        · rename_i hn
          have hnew : new ≠ id := fun e => hn (by rw [e, ← hl]; simp)
          have hpre : ∀ y ∈ pre.flatMap (fun l => if l.id = id' then [(⟨id', l.keys.take n⟩ : Leaf), ⟨new, l.keys.drop n⟩] else [l]),
              y.id ≠ id := by
            intro y hy
            obtain ⟨l', hl', hy⟩ := List.mem_flatMap.1 hy
            have := hp l' hl'
            split at hy
            · rename_i e
              simp only [List.mem_cons, List.not_mem_nil, or_false] at hy
              rcases hy with rfl | rfl
              · exact e ▸ this
              · exact hnew
            · rw [List.mem_singleton.1 hy]; exact this
          rw [List.flatMap_append, List.flatMap_cons]
          by_cases hi : l.id = id'
          · rw [if_pos hi, List.cons_append, List.cons_append, List.nil_append]
            rw [Leaves.after_at (id := id) hpre (by exact hi.symm.trans hl), Leaves.keys_cons, Leaves.split_keys]
            rcases List.mem_append.1 hx with hx | hx
            · rcases Nat.lt_or_ge n (i + 1) with h' | h'
              · refine List.mem_append_right _ (List.mem_append_left _ ?_)
                obtain ⟨m, hm⟩ : ∃ m, i + 1 = n + m := ⟨i + 1 - n, by omega⟩
                rw [hm, ← List.drop_drop] at hx
                exact List.mem_of_mem_drop hx
              · rw [← List.take_append_drop n l.keys, List.drop_append] at hx
                rcases List.mem_append.1 hx with hx | hx
                · exact List.mem_append_left _ hx
                · exact List.mem_append_right _ (List.mem_append_left _ (List.mem_of_mem_drop hx))
            · exact List.mem_append_right _ (List.mem_append_right _ hx)
          · rw [if_neg hi, List.singleton_append]
            rw [Leaves.after_at (id := id) hpre hl, Leaves.split_keys]
            exact hx
      | drop id' =>
        have hd : id' ≠ id := fun e => he i (by rw [e])
        simp only [Leaves.apply]
        rw [List.filter_append, List.filter_cons, if_pos (by
          rw [Bool.or_eq_true]; exact Or.inl (by simpa using fun e => hd (e.symm.trans hl)))]
        rw [Leaves.after_at (id := id) (fun y hy => hp y (List.mem_filter.1 hy).1) hl, Leaves.drop_keys]
        exact hx

theorem tcb_changes (es : List TreeEv) (t : Leaves) (p : TreePos) :
    es.foldl (fun s e => tcbChange e s) (t, p) = (es.foldl Leaves.apply t, p) := by
  induction es generalizing t with
  | nil => rfl
  | cons e es ih => exact ih _

theorem Leaves.applys_ok (es : List TreeEv) {t : Leaves} (ht : t.Ok) : (es.foldl Leaves.apply t).Ok := by
  induction es generalizing t with
  | nil => exact ht
  | cons e es ih => exact ih (Leaves.apply_ok ht e)

theorem Leaves.applys_keep (es : List TreeEv) {t : Leaves} (ht : t.Ok) {p : TreePos} (he : TreeHarmless t p es) {x : Bytes}
    (hx : x ∈ t.after p) (hne : TreeEv.out x ∉ es) : x ∈ (es.foldl Leaves.apply t).after p := by
  induction es generalizing t with
  | nil => exact hx
  | cons e es ih =>
    rw [List.mem_cons, not_or] at hne
    exact ih (Leaves.apply_ok ht e) he.2 (Leaves.after_keep ht he.1 hx (fun e' => hne.1 e'.symm)) hne.2

/-- What is behind the cursor is returned, if nothing harms. -/
theorem tcb_returned (rounds : List (List TreeEv)) {t : Leaves} (ht : t.Ok) {p : TreePos} (hh : CursorHarmless t p rounds)
    {x : Bytes} (hx : x ∈ t.after p) (hne : ∀ es ∈ rounds, TreeEv.out x ∉ es)
    (he : (iterate tcbNext tcbChange (t, p) rounds).2 = true) : x ∈ (iterate tcbNext tcbChange (t, p) rounds).1 := by
  induction rounds generalizing t p with
  | nil => exact nomatch he
  | cons es rest ih =>
    obtain ⟨h1, h2⟩ := hh
    have ht' := Leaves.applys_ok es ht
    have hx' := Leaves.applys_keep es ht h1 hx (hne es List.mem_cons_self)
    simp only [tcb_changes] at h2
    simp only [iterate, tcb_changes] at he ⊢
    generalize es.foldl Leaves.apply t = t' at *
    have hna := Leaves.next_after ht'.1 p
    cases hn : t'.next p with
    | none => simp only [hn] at hna; rw [hna] at hx'; exact nomatch hx'
    | some r =>
      obtain ⟨k, p'⟩ := r
      simp only [hn] at hna
      have h2 := h2 k (t', p') (by simp only [tcbNext, hn])
      simp only [tcbNext, hn] at he ⊢
      rw [hna] at hx'
      rcases List.mem_cons.1 hx' with rfl | hx'
      · exact List.mem_cons_self
      · exact List.mem_cons_of_mem _ (ih ht' h2 hx' (fun es' h => hne es' (List.mem_cons_of_mem _ h)) he)

/-- Removing records and dropping leaves brings no record behind the cursor. -/
theorem Leaves.after_less {t : Leaves} {p : TreePos} {e : TreeEv} (he : (∃ k, e = .out k) ∨ ∃ id, e = .drop id)
    {x : Bytes} (hx : x ∉ t.after p) (hids : (t.map (·.id)).Nodup) : x ∉ (t.apply e).after p := by
  intro h
  apply hx
  cases p with
  | lost => exact nomatch h
  | start =>
    simp only [Leaves.after] at h ⊢
    rcases he with ⟨k, rfl⟩ | ⟨id, rfl⟩
    · simp only [Leaves.apply, Leaves.out_keys, List.mem_filter] at h; exact h.1
    · simp only [Leaves.apply, Leaves.drop_keys] at h; exact h
  | «at» id i =>
    cases hta : t.tail id with
    | nil =>
      have hno := Leaves.tail_none.1 hta
      have : (t.apply e).tail id = [] := by
        refine Leaves.tail_none.2 ?_
        intro l hl
        rcases he with ⟨k, rfl⟩ | ⟨id', rfl⟩
        · obtain ⟨l', hl', rfl⟩ := List.mem_map.1 hl
          exact hno l' hl'
        · exact hno l (List.mem_filter.1 hl).1
      rw [Leaves.after_none this] at h
      exact nomatch h
    | cons l ls =>
      obtain ⟨pre, rfl, hl, hp⟩ := Leaves.tail_some hta
      rw [Leaves.after_at hp hl]
      rcases he with ⟨k, rfl⟩ | ⟨id', rfl⟩
      · simp only [Leaves.apply, Leaves.out, List.map_append, List.map_cons] at h
        rw [Leaves.after_at (id := id) (by
            intro y hy
            obtain ⟨y', hy', rfl⟩ := List.mem_map.1 hy
            exact hp y' hy') (l := { l with keys := l.keys.filter fun x => decide (x ≠ k) }) hl] at h
        rcases List.mem_append.1 h with h | h
        · exact List.mem_append_left _ (drop_filter_subset _ _ _ _ h)
        · have := Leaves.out_keys ls k
          simp only [Leaves.out] at this
          rw [this, List.mem_filter] at h
          exact List.mem_append_right _ h.1
      · simp only [Leaves.apply, List.filter_append, List.filter_cons] at h
        split at h
        · rw [Leaves.after_at (id := id) (fun y hy => hp y (List.mem_filter.1 hy).1) hl, Leaves.drop_keys] at h
          exact h
        · exfalso
          have hno : ∀ y ∈ pre.filter (fun l => decide (l.id ≠ id') || !l.keys.isEmpty) ++
              ls.filter (fun l => decide (l.id ≠ id') || !l.keys.isEmpty), y.id ≠ id := by
            intro y hy
            rcases List.mem_append.1 hy with hy | hy
            · exact hp y (List.mem_filter.1 hy).1
            · intro e
              rw [List.map_append, List.nodup_append] at hids
              have := hids.2.1
              rw [List.map_cons, List.nodup_cons] at this
              exact this.1 (by rw [hl, ← e]; exact List.mem_map_of_mem (List.mem_filter.1 hy).1)
          have := Leaves.tail_none.2 hno
          rw [Leaves.after_none this] at h
          exact nomatch h

/-- A record that is not behind the cursor is not returned while records only go. -/
theorem tcb_past (rounds : List (List TreeEv)) {t : Leaves} (ht : t.Ok) {p : TreePos}
    (hh : ∀ es ∈ rounds, ∀ e ∈ es, (∃ k, e = .out k) ∨ ∃ id, e = .drop id) {x : Bytes} (hx : x ∉ t.after p) :
    x ∉ (iterate tcbNext tcbChange (t, p) rounds).1 := by
  induction rounds generalizing t p with
  | nil => exact fun h => nomatch h
  | cons es rest ih =>
    have ht' := Leaves.applys_ok es ht
    have hx' : x ∉ (es.foldl Leaves.apply t).after p := by
      have main : ∀ (es : List TreeEv) (t : Leaves), t.Ok → (∀ e ∈ es, (∃ k, e = .out k) ∨ ∃ id, e = .drop id) →
          x ∉ t.after p → x ∉ (es.foldl Leaves.apply t).after p := by
        intro es
        induction es with
        | nil => exact fun t _ _ h => h
        | cons e es ih2 =>
          intro t ht hes h
          exact ih2 _ (Leaves.apply_ok ht e) (fun e' h' => hes e' (List.mem_cons_of_mem _ h'))
            (Leaves.after_less (hes e List.mem_cons_self) h ht.1)
      exact main es t ht (hh es List.mem_cons_self) hx
    simp only [iterate, tcb_changes]
    generalize es.foldl Leaves.apply t = t' at *
    have hna := Leaves.next_after ht'.1 p
    cases hn : t'.next p with
    | none => simp only [tcbNext, hn]; exact fun h => nomatch h
    | some r =>
      obtain ⟨k, p'⟩ := r
      simp only [hn] at hna
      rw [hna, List.mem_cons, not_or] at hx'
      simp only [tcbNext, hn, List.mem_cons, not_or]
      exact ⟨hx'.1, ih ht' (fun es' h => hh es' (List.mem_cons_of_mem _ h)) hx'.2⟩

end Flare
