import Verif.Spec.Iterate

namespace Flare

/-! ### Hash databases -/

theorem Records.from_none {f : Records} {c : Nat} (h : f.from_ c = none) : ∀ r ∈ f, r.1 < c := by
  intro r hr
  have := List.find?_eq_none.1 h r hr
  simpa using this

theorem Records.from_some {f : Records} (hf : f.Pairwise (fun a b => a.1 < b.1)) {c : Nat} {r : Nat × Bytes}
    (h : f.from_ c = some r) : r ∈ f ∧ c ≤ r.1 ∧ ∀ r' ∈ f, c ≤ r'.1 → r.1 ≤ r'.1 := by
  obtain ⟨h1, as, bs, rfl, h2⟩ := List.find?_eq_some_iff_append.1 h
  have h1 : c ≤ r.1 := by simpa using h1
  refine ⟨by simp, h1, ?_⟩
  intro r' hr' hc
  rcases List.mem_append.1 hr' with hr' | hr'
  · have := h2 r' hr'
    simp only [Bool.not_eq_true', decide_eq_false_iff_not] at this
    exact absurd hc this
  · rcases List.mem_cons.1 hr' with rfl | hr'
    · exact Nat.le_refl _
    · have := (List.pairwise_append.1 hf).2.1
      exact Nat.le_of_lt ((List.pairwise_cons.1 this).1 _ hr')

theorem Records.mem_insert {f : Records} {o : Nat} {k : Bytes} {r : Nat × Bytes} :
    r ∈ f.insert o k ↔ r = (o, k) ∨ r ∈ f := by
  have e := List.takeWhile_append_dropWhile (p := fun r : Nat × Bytes => decide (r.1 < o)) (l := f)
  have e2 : r ∈ f ↔ r ∈ f.takeWhile (fun r => decide (r.1 < o)) ∨ r ∈ f.dropWhile (fun r => decide (r.1 < o)) := by
    rw [← List.mem_append, e]
  rw [e2]
  simp only [Records.insert, List.mem_append, List.mem_cons]
  exact ⟨fun h => h.elim (fun h => Or.inr (Or.inl h)) (fun h => h.elim Or.inl (fun h => Or.inr (Or.inr h))),
    fun h => h.elim (fun h => Or.inr (Or.inl h)) (fun h => h.elim Or.inl (fun h => Or.inr (Or.inr h)))⟩

theorem Records.place_inj {f : Records} (hf : f.Pairwise (fun a b => a.1 < b.1)) {a b : Nat × Bytes} (ha : a ∈ f) (hb : b ∈ f)
    (h : a.1 = b.1) : a = b := by
  induction f with
  | nil => exact nomatch ha
  | cons r f ih =>
    obtain ⟨h1, h2⟩ := List.pairwise_cons.1 hf
    rcases List.mem_cons.1 ha with e | ha' <;> rcases List.mem_cons.1 hb with e' | hb'
    · rw [e, e']
    · have := h1 _ hb'; rw [e] at h; omega
    · have := h1 _ ha'; rw [e'] at h; omega
    · exact ih h2 ha' hb'

theorem Records.key_inj {f : Records} (hf : (f.map (·.2)).Nodup) {a b : Nat × Bytes} (ha : a ∈ f) (hb : b ∈ f)
    (h : a.2 = b.2) : a = b := by
  induction f with
  | nil => exact nomatch ha
  | cons r f ih =>
    rw [List.map_cons, List.nodup_cons] at hf
    obtain ⟨h1, h2⟩ := hf
    rcases List.mem_cons.1 ha with e | ha' <;> rcases List.mem_cons.1 hb with e' | hb'
    · rw [e, e']
    · exact absurd (e ▸ h ▸ List.mem_map_of_mem hb') h1
    · exact absurd (e' ▸ h ▸ List.mem_map_of_mem ha') h1
    · exact ih h2 ha' hb'

theorem Records.taken_false {f : Records} {o : Nat} (h : f.taken o = false) : ∀ r ∈ f, r.1 ≠ o := by
  intro r hr e
  have : f.taken o = true := List.any_eq_true.2 ⟨r, hr, by simp [e]⟩
  rw [h] at this
  exact nomatch this

theorem Records.has_false {f : Records} {k : Bytes} (h : f.has k = false) : ∀ r ∈ f, r.2 ≠ k := by
  intro r hr e
  have : f.has k = true := List.any_eq_true.2 ⟨r, hr, by simp [e]⟩
  rw [h] at this
  exact nomatch this

theorem Records.insert_ok {f : Records} (hf : f.Ok) {o : Nat} {k : Bytes} (ho : ∀ r ∈ f, r.1 ≠ o) (hk : ∀ r ∈ f, r.2 ≠ k) :
    (f.insert o k).Ok := by
  obtain ⟨h1, h2⟩ := hf
  have e := List.takeWhile_append_dropWhile (p := fun r : Nat × Bytes => decide (r.1 < o)) (l := f)
  have ha : ∀ r ∈ f.takeWhile (fun r => decide (r.1 < o)), r.1 < o := by
    intro r hr
    have := List.all_eq_true.1 (List.all_takeWhile (p := fun r : Nat × Bytes => decide (r.1 < o)) (l := f)) r hr
    simpa using this
  have hsub : ∀ r ∈ f.dropWhile (fun r => decide (r.1 < o)), r ∈ f := fun r hr => (List.dropWhile_sublist _).subset hr
  have hb : ∀ r ∈ f.dropWhile (fun r => decide (r.1 < o)), o < r.1 := by
    intro r hr
    have hp : (f.dropWhile (fun r => decide (r.1 < o))).Pairwise (fun a b => a.1 < b.1) :=
      h1.sublist (List.dropWhile_sublist _)
    cases hd : f.dropWhile (fun r => decide (r.1 < o)) with
    | nil => rw [hd] at hr; exact nomatch hr
    | cons a l =>
      have hna : ¬ a.1 < o := by
        have := List.head_dropWhile_not (fun r : Nat × Bytes => decide (r.1 < o)) (l := f) (by rw [hd]; simp)
        simp only [hd, List.head_cons] at this
        simpa using this
      have hae : a.1 ≠ o := ho a (hsub a (by rw [hd]; simp))
      rw [hd] at hr hp
      rcases List.mem_cons.1 hr with rfl | hr
      · omega
      · have := (List.pairwise_cons.1 hp).1 r hr
        omega
  constructor
  · refine List.pairwise_append.2 ⟨h1.sublist (List.takeWhile_sublist _),
      List.pairwise_cons.2 ⟨hb, h1.sublist (List.dropWhile_sublist _)⟩, ?_⟩
    intro a ha' b hb'
    have := ha a ha'
    rcases List.mem_cons.1 hb' with rfl | hb'
    · exact this
    · have := hb b hb'; omega
  · have hp : (f.insert o k).Perm ((o, k) :: f) := by
      have : ((o, k) :: f).Perm ((o, k) :: (f.takeWhile (fun r => decide (r.1 < o)) ++ f.dropWhile (fun r => decide (r.1 < o)))) := by
        rw [e]
      exact List.perm_middle.trans this.symm
    rw [(hp.map (·.2)).nodup_iff, List.map_cons, List.nodup_cons]
    refine ⟨?_, h2⟩
    intro hm
    obtain ⟨r, hr, e⟩ := List.mem_map.1 hm
    exact hk r hr e

theorem Records.out_ok {f : Records} (hf : f.Ok) (k : Bytes) : (f.out k).Ok :=
  ⟨hf.1.sublist List.filter_sublist, hf.2.sublist (List.filter_sublist.map _)⟩

theorem Records.mem_out {f : Records} {k : Bytes} {r : Nat × Bytes} : r ∈ f.out k ↔ r ∈ f ∧ r.2 ≠ k := by
  simp [Records.out]

theorem Records.apply_ok {f : Records} (hf : f.Ok) (e : FileEv) : (f.apply e).Ok := by
  cases e with
  | put o k =>
    simp only [Records.apply]
    split
    · exact hf
    · rename_i h
      rw [Bool.or_eq_true, not_or, Bool.not_eq_true, Bool.not_eq_true] at h
      exact Records.insert_ok hf (Records.taken_false h.1) (Records.has_false h.2)
  | out k => exact Records.out_ok hf k
  | move k o =>
    simp only [Records.apply]
    split
    · exact hf
    · rename_i h
      rw [Bool.or_eq_true, not_or, Bool.not_eq_true] at h
      exact Records.insert_ok (Records.out_ok hf k) (fun r hr => Records.taken_false h.1 r (Records.mem_out.1 hr).1)
        (fun r hr => (Records.mem_out.1 hr).2)

theorem Records.apply_keep {f : Records} {e : FileEv} {r : Nat × Bytes} (hr : r ∈ f) (h : ¬ e.Touches r.2) : r ∈ f.apply e := by
  cases e with
  | put o k =>
    simp only [Records.apply]
    split
    · exact hr
    · exact Records.mem_insert.2 (Or.inr hr)
  | out k => exact Records.mem_out.2 ⟨hr, fun h' => h h'.symm⟩
  | move k o =>
    simp only [Records.apply]
    split
    · exact hr
    · exact Records.mem_insert.2 (Or.inr (Records.mem_out.2 ⟨hr, fun h' => h h'.symm⟩))

theorem tch_changes (es : List FileEv) (f : Records) (c : Nat) :
    es.foldl (fun s e => tchChange e s) (f, c) = (es.foldl Records.apply f, c) := by
  induction es generalizing f with
  | nil => rfl
  | cons e es ih => exact ih _

theorem Records.applys_ok (es : List FileEv) {f : Records} (hf : f.Ok) : (es.foldl Records.apply f).Ok := by
  induction es generalizing f with
  | nil => exact hf
  | cons e es ih => exact ih (Records.apply_ok hf e)

theorem Records.applys_keep (es : List FileEv) {f : Records} {r : Nat × Bytes} (hr : r ∈ f) (h : ∀ e ∈ es, ¬ e.Touches r.2) :
    r ∈ es.foldl Records.apply f := by
  induction es generalizing f with
  | nil => exact hr
  | cons e es ih =>
    exact ih (Records.apply_keep hr (h e List.mem_cons_self)) (fun e' he => h e' (List.mem_cons_of_mem _ he))

theorem tch_count (rounds : List (List FileEv)) {f : Records} (hf : f.Ok) {o : Nat} {k : Bytes} (hm : (o, k) ∈ f)
    (ht : ∀ es ∈ rounds, ∀ e ∈ es, ¬ e.Touches k) (c : Nat) (he : (iterate tchNext tchChange (f, c) rounds).2 = true) :
    (iterate tchNext tchChange (f, c) rounds).1.count k = if c ≤ o then 1 else 0 := by
  induction rounds generalizing f c with
  | nil => exact nomatch he
  | cons es rest ih =>
    have hf' := Records.applys_ok es hf
    have hm' := Records.applys_keep es hm (ht es List.mem_cons_self)
    have ht' : ∀ es ∈ rest, ∀ e ∈ es, ¬ e.Touches k := fun es' h => ht es' (List.mem_cons_of_mem _ h)
    simp only [iterate, tch_changes] at he ⊢
    generalize es.foldl Records.apply f = f' at *
    cases hn : f'.from_ c with
    | none =>
      have := Records.from_none hn _ hm'
      simp only at this
      rw [if_neg (by omega)]
      simp only [tchNext, hn, List.count_nil]
    | some r =>
      obtain ⟨o', k'⟩ := r
      obtain ⟨h1, h2, h3⟩ := Records.from_some hf'.1 hn
      simp only [tchNext, hn] at he ⊢
      rw [List.count_cons, ih hf' hm' ht' (o' + 1) he]
      simp only at h2 h3
      by_cases hk : k' = k
      · subst hk
        have := congrArg Prod.fst (Records.key_inj hf'.2 h1 hm' rfl)
        simp only at this
        subst this
        rw [if_neg (by omega), if_pos h2]
        simp
      · have hne : o' ≠ o := fun e => hk (congrArg Prod.snd (Records.place_inj hf'.1 h1 hm' e))
        simp only [beq_iff_eq, hk, if_false]
        by_cases hc : c ≤ o
        · have := h3 _ hm' hc
          simp only at this
          rw [if_pos (by omega), if_pos hc]
        · rw [if_neg (by omega), if_neg hc]

/-! ### The cursor of Kyoto Cabinet -/

theorem kch_change_fst (e : FileEv) (s : Records × Option Nat) : (kchChange e s).1 = s.1.apply e := rfl

theorem kchEscape_other {f : Records} (hf : f.Ok) {c : Nat} {x k : Bytes} (hm : (c, x) ∈ f) (h : k ≠ x) :
    kchEscape f k (some c) = some c := by
  simp only [kchEscape]
  split
  · rename_i ha
    obtain ⟨r, hr, e⟩ := List.any_eq_true.1 ha
    simp only [Bool.and_eq_true, beq_iff_eq] at e
    have := Records.place_inj hf.1 hr hm e.1
    rw [this] at e
    exact absurd e.2.symm h
  · rfl

theorem kch_changes_some (es : List FileEv) {f : Records} (hf : f.Ok) {c : Nat} {x : Bytes} (hm : (c, x) ∈ f)
    (h : ∀ e ∈ es, ¬ e.Touches x) :
    es.foldl (fun s e => kchChange e s) (f, some c) = (es.foldl Records.apply f, some c) := by
  induction es generalizing f with
  | nil => rfl
  | cons e es ih =>
    have he := h e List.mem_cons_self
    have : kchChange e (f, some c) = (f.apply e, some c) := by
      cases e with
      | put o k => rfl
      | out k => simp only [kchChange, kchEscape_other hf hm (k := k) (fun h' => he h')]
      | move k o => simp only [kchChange, kchEscape_other hf hm (k := k) (fun h' => he h'), ite_self]
    simp only [List.foldl_cons, this]
    exact ih (Records.apply_ok hf e) (Records.apply_keep hm he) (fun e' h' => h e' (List.mem_cons_of_mem _ h'))

theorem kch_changes_none (es : List FileEv) (f : Records) :
    es.foldl (fun s e => kchChange e s) (f, none) = (es.foldl Records.apply f, none) := by
  induction es generalizing f with
  | nil => rfl
  | cons e es ih =>
    have : kchChange e (f, none) = (f.apply e, none) := by
      cases e <;> simp [kchChange, kchEscape]
    simp only [List.foldl_cons, this]
    exact ih _

theorem Records.from_at {f : Records} (hf : f.Ok) {c : Nat} {x : Bytes} (hm : (c, x) ∈ f) : f.from_ c = some (c, x) := by
  cases hn : f.from_ c with
  | none => exact absurd (Records.from_none hn _ hm) (by simp)
  | some r =>
    obtain ⟨h1, h2, h3⟩ := Records.from_some hf.1 hn
    have := h3 _ hm (Nat.le_refl _)
    rw [Records.place_inj hf.1 h1 hm (by simp only at this ⊢; omega)]

/-- The cursor as long as the record it is at is left alone. -/
theorem kch_spared (rounds : List (List FileEv)) {f : Records} (hf : f.Ok) {c : Nat} {x : Bytes} (hm : (c, x) ∈ f)
    (h : ∀ pre es post, rounds = pre ++ es :: post → ∀ e ∈ es, ∀ y, e.Touches y →
      (x :: (iterate kchNext kchChange (f, some c) pre).1).getLast? ≠ some y) :
    iterate kchNext kchChange (f, some c) rounds = iterate tchNext tchChange (f, c + 1) rounds := by
  induction rounds generalizing f c x with
  | nil => rfl
  | cons es rest ih =>
    have hx : ∀ e ∈ es, ¬ e.Touches x := fun e he ht => h [] es rest rfl e he x ht rfl
    have hf' := Records.applys_ok es hf
    have hm' := Records.applys_keep es hm hx
    have hc := kch_changes_some es hf hm hx
    simp only [iterate, hc, tch_changes]
    generalize hg : es.foldl Records.apply f = f' at *
    cases hn : f'.from_ (c + 1) with
    | none => simp only [kchNext, tchNext, Records.from_at hf' hm', hn]
    | some r =>
      obtain ⟨o', k'⟩ := r
      obtain ⟨h1, -, -⟩ := Records.from_some hf'.1 hn
      have := ih hf' h1 (by
        intro pre es' post e ev hev y hy
        have := h (es :: pre) es' post (by rw [e]; rfl) ev hev y hy
        simp only [iterate, hc, kchNext, Records.from_at hf' hm', hn] at this
        rwa [List.getLast?_cons_cons] at this)
      simp only [kchNext, tchNext, Records.from_at hf' hm', hn, this]

/-- A record that the cursor has passed is not returned any more. -/
theorem kch_past (rounds : List (List FileEv)) {f : Records} (hf : f.Ok) {o : Nat} {k : Bytes} (hm : (o, k) ∈ f)
    (ht : ∀ es ∈ rounds, ∀ e ∈ es, ¬ e.Touches k) {c : Nat} (hc : o < c) :
    k ∉ (iterate kchNext kchChange (f, some c) rounds).1 := by
  induction rounds generalizing f c with
  | nil => exact fun h => nomatch h
  | cons es rest ih =>
    have hf' := Records.applys_ok es hf
    have hm' := Records.applys_keep es hm (ht es List.mem_cons_self)
    have hch : ∃ c', c ≤ c' ∧ es.foldl (fun s e => kchChange e s) (f, some c) = (es.foldl Records.apply f, some c') := by
      have main : ∀ (es : List FileEv) (f : Records) (c : Nat),
          ∃ c', c ≤ c' ∧ es.foldl (fun s e => kchChange e s) (f, some c) = (es.foldl Records.apply f, some c') := by
        intro es
        induction es with
        | nil => exact fun f c => ⟨c, Nat.le_refl _, rfl⟩
        | cons e es ih2 =>
          intro f c
          have : ∃ c1, c ≤ c1 ∧ kchChange e (f, some c) = (f.apply e, some c1) := by
            have esc : ∀ k, ∃ c1, c ≤ c1 ∧ kchEscape f k (some c) = some c1 := by
              intro k
              simp only [kchEscape]
              split
              · exact ⟨c + 1, by omega, rfl⟩
              · exact ⟨c, Nat.le_refl _, rfl⟩
            cases e with
            | put o k => exact ⟨c, Nat.le_refl _, rfl⟩
            | out k =>
              obtain ⟨c1, a1, a2⟩ := esc k
              exact ⟨c1, a1, by simp only [kchChange, a2]⟩
            | move k o =>
              obtain ⟨c1, a1, a2⟩ := esc k
              simp only [kchChange, a2]
              split
              · exact ⟨c, Nat.le_refl _, rfl⟩
              · exact ⟨c1, a1, rfl⟩
          obtain ⟨c1, a1, a2⟩ := this
          obtain ⟨c2, b1, b2⟩ := ih2 (f.apply e) c1
          exact ⟨c2, by omega, by simp only [List.foldl_cons, a2, b2]⟩
      exact main es f c
    obtain ⟨c', hle, hch⟩ := hch
    simp only [iterate, hch]
    generalize es.foldl Records.apply f = f' at *
    cases hn : f'.from_ c' with
    | none => simp only [kchNext, hn]; exact fun h => nomatch h
    | some r =>
      obtain ⟨o1, k1⟩ := r
      obtain ⟨h1, h2, -⟩ := Records.from_some hf'.1 hn
      cases hn2 : f'.from_ (o1 + 1) with
      | none => simp only [kchNext, hn, hn2]; exact fun h => nomatch h
      | some r2 =>
        obtain ⟨o2, k2⟩ := r2
        obtain ⟨g1, g2, -⟩ := Records.from_some hf'.1 hn2
        simp only [kchNext, hn, hn2, List.mem_cons, not_or]
        simp only at h2 g2
        refine ⟨?_, ih hf' hm' (fun es' h => ht es' (List.mem_cons_of_mem _ h)) (by omega)⟩
        intro e
        have := congrArg Prod.fst (Records.key_inj hf'.2 g1 hm' e.symm)
        simp only at this
        omega

end Flare
