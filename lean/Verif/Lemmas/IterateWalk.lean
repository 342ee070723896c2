import Verif.Lemmas.IterateTree

namespace Flare

/-! ### Iterations with nobody else at work -/

theorem passing_cons (gone : Bytes → Bool) (k : Bytes) (ks : List Bytes) :
    passing gone (k :: ks) = k :: passing gone (if gone k then ks.tail else ks) := by
  cases ks with
  | nil => cases h : gone k <;> simp [passing]
  | cons k' ks => cases h : gone k <;> simp [passing, h]

theorem passing_sublist (gone : Bytes → Bool) (ks : List Bytes) : (passing gone ks).Sublist ks := by
  match ks with
  | [] => exact List.Sublist.refl _
  | [k] => exact List.Sublist.refl _
  | k :: k' :: ks =>
    simp only [passing]
    split
    · exact ((passing_sublist gone ks).cons k').cons_cons k
    · exact (passing_sublist gone (k' :: ks)).cons_cons k

theorem passing_all (gone : Bytes → Bool) (ks : List Bytes) (h : ∀ k ∈ ks, gone k = false) : passing gone ks = ks := by
  match ks with
  | [] => rfl
  | [k] => rfl
  | k :: k' :: ks =>
    simp only [passing, h k List.mem_cons_self, Bool.false_eq_true, if_false]
    rw [passing_all gone (k' :: ks) (fun x hx => h x (List.mem_cons_of_mem _ hx))]

/-- The record after the first one to be removed is passed over. -/
theorem passing_lost (gone : Bytes → Bool) {xs ys : List Bytes} {x y : Bytes} (hxs : ∀ k ∈ xs, gone k = false)
    (hx : gone x = true) : passing gone (xs ++ x :: y :: ys) = xs ++ x :: passing gone ys := by
  induction xs with
  | nil => simp [passing, hx]
  | cons a xs ih =>
    rw [List.cons_append, passing_cons, hxs a List.mem_cons_self]
    simp only [Bool.false_eq_true, if_false]
    rw [ih (fun k hk => hxs k (List.mem_cons_of_mem _ hk))]
    rfl

theorem walk_keys {σ : Type} {next : σ → Option (Bytes × σ)} {out : Bytes → σ → σ} (keys : σ → List Bytes)
    (hn : ∀ s k s', next s = some (k, s') → keys s' = keys s) (ho : ∀ k s x, x ∈ keys (out k s) ↔ x ∈ keys s ∧ x ≠ k)
    (gone : Bytes → Bool) (n : Nat) (s : σ) (x : Bytes) :
    x ∈ keys (walk next out gone n s).2.2 ↔ x ∈ keys s ∧ ¬ (gone x = true ∧ x ∈ (walk next out gone n s).1) := by
  induction n generalizing s with
  | zero => simp [walk]
  | succ n ih =>
    cases hs : next s with
    | none => simp [walk, hs]
    | some r =>
      obtain ⟨k, s'⟩ := r
      simp only [walk, hs]
      rw [ih]
      have hk := hn s k s' hs
      cases hg : gone k with
      | false =>
        simp only [Bool.false_eq_true, if_false, hk, List.mem_cons]
        constructor
        · rintro ⟨h1, h2⟩
          refine ⟨h1, fun ⟨g, e⟩ => ?_⟩
          rcases e with rfl | e
          · rw [hg] at g; exact nomatch g
          · exact h2 ⟨g, e⟩
        · rintro ⟨h1, h2⟩
          exact ⟨h1, fun ⟨g, e⟩ => h2 ⟨g, Or.inr e⟩⟩
      | true =>
        simp only [if_true, ho, hk, List.mem_cons]
        constructor
        · rintro ⟨⟨h1, h3⟩, h2⟩
          refine ⟨h1, fun ⟨g, e⟩ => ?_⟩
          rcases e with e | e
          · exact h3 e
          · exact h2 ⟨g, e⟩
        · rintro ⟨h1, h2⟩
          exact ⟨⟨h1, fun e => h2 ⟨e ▸ hg, Or.inl e⟩⟩, fun ⟨g, e⟩ => h2 ⟨g, Or.inr e⟩⟩

/-! ### Tokyo Cabinet, hash database -/

theorem Records.from_split {pre rest : Records} {c : Nat} (h1 : ∀ r ∈ pre, r.1 < c) (h2 : ∀ r ∈ rest, c ≤ r.1) :
    Records.from_ (pre ++ rest) c = rest.head? := by
  have : pre.find? (fun r => decide (c ≤ r.1)) = none :=
    List.find?_eq_none.2 (fun r hr => by have := h1 r hr; simp; omega)
  simp only [Records.from_, List.find?_append, this, Option.none_or]
  cases rest with
  | nil => rfl
  | cons r rest => rw [List.find?_cons_of_pos (by simpa using h2 r List.mem_cons_self)]; rfl

theorem Records.out_split {pre post : Records} {o : Nat} {k : Bytes} (h : (List.map (·.2) (pre ++ (o, k) :: post)).Nodup) :
    Records.out (pre ++ (o, k) :: post) k = pre ++ post := by
  have hp : ∀ r ∈ pre ++ post, r.2 ≠ k := by
    intro r hr e
    have := (List.perm_middle (l₁ := pre) (l₂ := post) (a := (o, k))).map (·.2)
    rw [this.nodup_iff, List.map_cons, List.nodup_cons] at h
    exact h.1 (List.mem_map.2 ⟨r, hr, e⟩)
  simp only [Records.out, List.filter_append, List.filter_cons, ne_eq, not_true, decide_false, Bool.false_eq_true, if_false]
  rw [← List.filter_append]
  exact List.filter_eq_self.2 (fun r hr => by simpa using hp r hr)

theorem tch_walk (gone : Bytes → Bool) (n : Nat) {pre rest : Records} (hf : Records.Ok (pre ++ rest)) {c : Nat}
    (h1 : ∀ r ∈ pre, r.1 < c) (h2 : ∀ r ∈ rest, c ≤ r.1) (hn : rest.length < n) :
    (walk tchNext (fun k => tchChange (.out k)) gone n (pre ++ rest, c)).1 = rest.map (·.2) ∧
    (walk tchNext (fun k => tchChange (.out k)) gone n (pre ++ rest, c)).2.1 = true := by
  induction n generalizing pre rest c with
  | zero => omega
  | succ n ih =>
    have hfr := Records.from_split h1 h2
    cases rest with
    | nil => simp only [List.head?_nil] at hfr; simp only [walk, tchNext, hfr, List.map_nil, and_self]
    | cons r rest =>
      obtain ⟨o, k⟩ := r
      simp only [List.head?_cons] at hfr
      have hpw := List.pairwise_append.1 hf.1
      have hpost := (List.pairwise_cons.1 hpw.2.1).1
      simp only [List.length_cons] at hn
      simp only [walk, tchNext, hfr]
      cases hg : gone k with
      | false =>
        have e : pre ++ (o, k) :: rest = (pre ++ [(o, k)]) ++ rest := by simp
        have := ih (pre := pre ++ [(o, k)]) (rest := rest) (c := o + 1) (by rw [← e]; exact hf) (by
            intro r hr
            rcases List.mem_append.1 hr with hr | hr
            · have := h1 r hr; have := h2 (o, k) List.mem_cons_self; simp only at this; omega
            · rw [List.mem_singleton.1 hr]; simp) (fun r hr => hpost r hr) (by omega)
        rw [← e] at this
        simp only [Bool.false_eq_true, if_false, List.map_cons, this.1, this.2, and_self]
      | true =>
        have := ih (pre := pre) (rest := rest) (c := o + 1) (by
            have := Records.out_ok hf k
            rwa [Records.out_split hf.2] at this) (by
            intro r hr
            have := h1 r hr; have := h2 (o, k) List.mem_cons_self; simp only at this; omega) (fun r hr => hpost r hr) (by omega)
        simp only [if_true, tchChange, Records.apply, Records.out_split hf.2, List.map_cons, this.1, this.2, and_self]

/-! ### Kyoto Cabinet -/

theorem kch_walk (gone : Bytes → Bool) (n : Nat) {pre rest : Records} {r0 : Nat × Bytes} (hf : Records.Ok (pre ++ r0 :: rest)) {c : Nat}
    (h1 : ∀ r ∈ pre, r.1 < c) (h2 : c ≤ r0.1) (hn : rest.length < n) :
    (walk kchNext (fun k => kchChange (.out k)) gone n (pre ++ r0 :: rest, some c)).1 = passing gone (rest.map (·.2)) ∧
    (walk kchNext (fun k => kchChange (.out k)) gone n (pre ++ r0 :: rest, some c)).2.1 = true := by
  induction n generalizing pre rest r0 c with
  | zero => omega
  | succ n ih =>
    have hpw := List.pairwise_append.1 hf.1
    have h0 := (List.pairwise_cons.1 hpw.2.1).1
    have hp2 := (List.pairwise_cons.1 hpw.2.1).2
    have hfr : Records.from_ (pre ++ r0 :: rest) c = some r0 := by
      refine (Records.from_split h1 ?_).trans rfl
      intro r hr
      rcases List.mem_cons.1 hr with rfl | hr
      · exact h2
      · have := h0 r hr; omega
    have e0 : pre ++ r0 :: rest = (pre ++ [r0]) ++ rest := by simp
    have hb : ∀ r ∈ pre ++ [r0], r.1 < r0.1 + 1 := by
      intro r hr
      rcases List.mem_append.1 hr with hr | hr
      · have := h1 r hr; omega
      · rw [List.mem_singleton.1 hr]; omega
    have hfr2 : Records.from_ (pre ++ r0 :: rest) (r0.1 + 1) = rest.head? := by
      rw [e0]
      exact Records.from_split hb (fun r hr => h0 r hr)
    obtain ⟨o0, k0⟩ := r0
    cases rest with
    | nil =>
      simp only [List.head?_nil] at hfr2
      simp [walk, kchNext, hfr, hfr2, passing]
    | cons r rest =>
      obtain ⟨o, k⟩ := r
      simp only [List.head?_cons] at hfr2
      have h00 := h0 (o, k) List.mem_cons_self
      have hpost := (List.pairwise_cons.1 hp2).1
      simp only [List.length_cons] at hn
      simp only [walk, kchNext, hfr, hfr2]
      rw [List.map_cons, passing_cons]
      cases hg : gone k with
      | false =>
        have := ih (pre := pre ++ [(o0, k0)]) (r0 := (o, k)) (rest := rest) (c := o) (by
          rw [← e0]; exact hf) (fun r hr => by have := hb r hr; simp only at this h00; omega) (Nat.le_refl _) (by omega)
        rw [← e0] at this
        simp only [Bool.false_eq_true, if_false, this.1, this.2, and_self]
      | true =>
        have hout : Records.out (pre ++ (o0, k0) :: (o, k) :: rest) k = pre ++ (o0, k0) :: rest := by
          have := Records.out_split (pre := pre ++ [(o0, k0)]) (post := rest) (o := o) (k := k) (by
            rw [← e0]; exact hf.2)
          rw [← e0] at this
          rw [this]; simp
        have hesc : kchEscape (pre ++ (o0, k0) :: (o, k) :: rest) k (some o) = some (o + 1) := by
          simp only [kchEscape]
          rw [if_pos]
          exact List.any_eq_true.2 ⟨(o, k), by simp, by simp⟩
        have hok := Records.out_ok hf k
        rw [hout] at hok
        simp only [if_true, kchChange, Records.apply, hout, hesc]
        cases rest with
        | nil =>
          obtain ⟨m, rfl⟩ : ∃ m, n = m + 1 := ⟨n - 1, by simp only [List.length_nil] at hn; omega⟩
          have hnone : Records.from_ (pre ++ [(o0, k0)]) (o + 1) = none := by
            have := Records.from_split (pre := pre ++ [(o0, k0)]) (rest := []) (c := o + 1) (by
              intro r hr
              have := hb r hr
              simp only at this h00
              omega) (fun r hr => nomatch hr)
            rw [List.append_nil] at this
            exact this
          simp only [walk, kchNext, hnone, List.map_nil, List.tail_nil, passing, and_self]
        | cons r2 rest2 =>
          have e2 : pre ++ (o0, k0) :: r2 :: rest2 = (pre ++ [(o0, k0)]) ++ r2 :: rest2 := by simp
          have := ih (pre := pre ++ [(o0, k0)]) (r0 := r2) (rest := rest2) (c := o + 1) (by rw [← e2]; exact hok)
            (fun r hr => by have := hb r hr; simp only at this h00; omega)
            (hpost r2 List.mem_cons_self) (by simp only [List.length_cons] at hn; omega)
          rw [← e2] at this
          simp only [this.1, this.2, List.map_cons, List.tail_cons, and_self]

theorem kch_walk_start (gone : Bytes → Bool) (n : Nat) {f : Records} (hf : f.Ok) (hn : f.length < n) :
    (walk kchNext (fun k => kchChange (.out k)) gone n (f, none)).1 = passing gone (f.map (·.2)) ∧
    (walk kchNext (fun k => kchChange (.out k)) gone n (f, none)).2.1 = true := by
  obtain ⟨m, rfl⟩ : ∃ m, n = m + 1 := ⟨n - 1, by omega⟩
  have hfr : f.from_ 0 = f.head? := Records.from_split (pre := []) (fun r hr => nomatch hr) (fun r _ => Nat.zero_le _)
  cases f with
  | nil => simp only [List.head?_nil] at hfr; simp [walk, kchNext, hfr, passing]
  | cons r rest =>
    obtain ⟨o, k⟩ := r
    simp only [List.head?_cons] at hfr
    simp only [List.length_cons] at hn
    simp only [walk, kchNext, hfr]
    rw [List.map_cons, passing_cons]
    have hpost := (List.pairwise_cons.1 hf.1).1
    cases hg : gone k with
    | false =>
      have := kch_walk gone m (pre := []) (r0 := (o, k)) (rest := rest) hf (c := o) (fun r hr => nomatch hr) (Nat.le_refl _) (by omega)
      simp only [List.nil_append] at this
      simp only [Bool.false_eq_true, if_false, this.1, this.2, and_self]
    | true =>
      have hout : Records.out ((o, k) :: rest) k = rest := Records.out_split (pre := []) (by simpa using hf.2)
      have hesc : kchEscape ((o, k) :: rest) k (some o) = some (o + 1) := by simp [kchEscape]
      have hok := Records.out_ok hf k
      rw [hout] at hok
      simp only [if_true, kchChange, Records.apply, hout, hesc]
      cases rest with
      | nil =>
        obtain ⟨m, rfl⟩ : ∃ m', m = m' + 1 := ⟨m - 1, by simp only [List.length_nil] at hn; omega⟩
        simp only [walk, kchNext, Records.from_, List.find?_nil, List.map_nil, List.tail_nil, passing, and_self]
      | cons r2 rest2 =>
        have := kch_walk gone m (pre := []) (r0 := r2) (rest := rest2) hok (c := o + 1) (fun r hr => nomatch hr)
          (hpost r2 List.mem_cons_self) (by simp only [List.length_cons] at hn; omega)
        simp only [List.nil_append] at this
        simp only [this.1, this.2, List.map_cons, List.tail_cons, and_self]

/-! ### Tokyo Cabinet, B+ tree -/

theorem Leaves.out_same {t : Leaves} {k : Bytes} (h : k ∉ t.keys) : t.out k = t := by
  have : ∀ l ∈ t, { l with keys := l.keys.filter fun x => decide (x ≠ k) } = l := by
    intro l hl
    have : (l.keys.filter fun x => decide (x ≠ k)) = l.keys :=
      List.filter_eq_self.2 (fun x hx => by
        simp only [decide_eq_true_eq]
        exact fun e => h (List.mem_flatMap.2 ⟨l, hl, by rw [← e]; exact hx⟩))
    rw [this]
  simp only [Leaves.out]
  rw [List.map_congr_left this]
  exact List.map_id' t

theorem tcb_passing_sublist (gone : Bytes → Bool) (t : Leaves) :
    (t.flatMap fun l => passing gone l.keys).Sublist t.keys := by
  induction t with
  | nil => exact List.Sublist.refl _
  | cons l t ih =>
    rw [List.flatMap_cons, Leaves.keys_cons]
    exact (passing_sublist gone l.keys).append ih

theorem drop_filter_next {l : List Bytes} {k : Bytes} {i : Nat} {rest : List Bytes} (hn : l.Nodup)
    (h : l.drop i = k :: rest) : (l.filter fun x => decide (x ≠ k)).drop (i + 1) = rest.tail := by
  have e : l = l.take i ++ k :: rest := by rw [← h, List.take_append_drop]
  have hlen : (l.take i).length = i := by
    rw [List.length_take]
    have : (l.drop i).length = rest.length + 1 := by rw [h]; rfl
    rw [List.length_drop] at this
    omega
  have hn' := hn
  rw [e] at hn'
  have hk := (List.perm_middle.nodup_iff.1 hn')
  rw [List.nodup_cons] at hk
  have : (l.filter fun x => decide (x ≠ k)) = l.take i ++ rest := by
    have e1 : (l.take i ++ k :: rest).filter (fun x => decide (x ≠ k)) = l.take i ++ rest := by
      simp only [List.filter_append, List.filter_cons, ne_eq, not_true, decide_false, Bool.false_eq_true, if_false]
      rw [← List.filter_append]
      exact List.filter_eq_self.2 (fun x hx => by
        simp only [decide_eq_true_eq]
        exact fun e => hk.1 (by rw [← e]; exact hx))
    rw [← e] at e1
    exact e1
  rw [this, List.drop_append, hlen, List.drop_eq_nil_of_le (by omega), List.nil_append, Nat.add_sub_cancel_left, List.drop_one]

theorem tcb_walk (gone : Bytes → Bool) (n : Nat) {pre ls : Leaves} {l : Leaf} {i : Nat} (ht : Leaves.Ok (pre ++ l :: ls))
    (hn : (l.keys.drop (i + 1)).length + (Leaves.keys ls).length < n) :
    (walk tcbNext (fun k => tcbChange (.out k)) gone n (pre ++ l :: ls, .at l.id i)).1 =
      passing gone (l.keys.drop (i + 1)) ++ ls.flatMap (fun l => passing gone l.keys) ∧
    (walk tcbNext (fun k => tcbChange (.out k)) gone n (pre ++ l :: ls, .at l.id i)).2.1 = true := by
  induction n generalizing pre ls l i with
  | zero => omega
  | succ n ih =>
    have hp := Leaves.ids_pre ht.1
    have hta := Leaves.tail_at (ls := ls) hp rfl
    have hkeys := ht.2
    rw [Leaves.keys_append, Leaves.keys_cons, List.nodup_append, List.nodup_append] at hkeys
    obtain ⟨-, ⟨hk1, hk2, hk3⟩, hk4⟩ := hkeys
    cases hk : l.keys[i + 1]? with
    | some k =>
      obtain ⟨hlt, e⟩ := List.getElem?_eq_some_iff.1 hk
      have hd : l.keys.drop (i + 1) = k :: l.keys.drop (i + 2) := by rw [List.drop_eq_getElem_cons hlt, e]
      have hmem : k ∈ l.keys := e ▸ List.getElem_mem hlt
      rw [hd, List.length_cons] at hn
      simp only [walk, tcbNext, Leaves.next, hta, hk]
      rw [hd, passing_cons]
      cases hg : gone k with
      | false =>
        have := ih (i := i + 1) ht (by show (l.keys.drop (i + 2)).length + _ < n; omega)
        simp only [Bool.false_eq_true, if_false, this.1, this.2, List.cons_append, and_self]
      | true =>
        have h1 : Leaves.out pre k = pre := Leaves.out_same
          (fun h => hk4 k h k (List.mem_append_left _ hmem) rfl)
        have h2 : Leaves.out ls k = ls := Leaves.out_same (fun h => hk3 k hmem k h rfl)
        have hout : Leaves.out (pre ++ l :: ls) k =
            pre ++ { l with keys := l.keys.filter fun x => decide (x ≠ k) } :: ls := by
          simp only [Leaves.out, List.map_append, List.map_cons] at h1 h2 ⊢
          rw [h1, h2]
        have hok := Leaves.apply_ok ht (.out k)
        simp only [Leaves.apply, hout] at hok
        have hdf := drop_filter_next (i := i + 1) hk1 hd
        have := ih (i := i + 1) hok (by
          simp only [hdf, List.length_tail]; omega)
        simp only [hdf] at this
        simp only [if_true, tcbChange, Leaves.apply, hout, this.1, this.2, List.cons_append, and_self]
    | none =>
      have hd : l.keys.drop (i + 1) = [] := List.drop_eq_nil_of_le (List.getElem?_eq_none_iff.1 hk)
      rw [hd] at hn ⊢
      simp only [List.length_nil, Nat.zero_add] at hn
      have e : pre ++ l :: ls = (pre ++ [l]) ++ ls := by simp
      have hfa := Leaves.first_after (pre ++ [l]) ls (by rw [← e]; exact ht.1)
      rw [← e] at hfa
      have hnone : ∀ a : Leaves, Leaves.keys a = [] → a.flatMap (fun l => passing gone l.keys) = [] := by
        intro a ha
        refine List.flatMap_eq_nil_iff.2 (fun l hl => ?_)
        rw [List.flatMap_eq_nil_iff.1 ha l hl]; rfl
      cases hf : Leaves.first ls with
      | none =>
        simp only [hf] at hfa
        simp only [walk, tcbNext, Leaves.next, hta, hk, hf, passing, List.nil_append, hnone ls hfa, and_self]
      | some r =>
        obtain ⟨k, p⟩ := r
        simp only [hf] at hfa
        obtain ⟨-, a, l2, rest, b, hls, ha, hl2, hp2⟩ := hfa
        have e2 : pre ++ l :: ls = (pre ++ l :: a) ++ l2 :: b := by rw [hls]; simp
        simp only [walk, tcbNext, Leaves.next, hta, hk, hf, passing, List.nil_append]
        have hfm : ls.flatMap (fun l => passing gone l.keys) =
            (k :: passing gone (if gone k then rest.tail else rest)) ++ b.flatMap (fun l => passing gone l.keys) := by
          rw [hls, List.flatMap_append, List.flatMap_cons, hnone a ha, hl2, passing_cons, List.nil_append]
        have hlen : (Leaves.keys ls).length = rest.length + 1 + (Leaves.keys b).length := by
          rw [hls, Leaves.keys_append, ha, Leaves.keys_cons, hl2]
          simp only [List.nil_append, List.length_append, List.length_cons]
        rw [hlen] at hn
        rw [hfm, hp2, e2]
        have ht2 : Leaves.Ok ((pre ++ l :: a) ++ l2 :: b) := e2 ▸ ht
        cases hg : gone k with
        | false =>
          have := ih (pre := pre ++ l :: a) (l := l2) (ls := b) (i := 0) ht2 (by
            rw [hl2]; simp only [Nat.zero_add, List.drop_one, List.tail_cons]; omega)
          rw [hl2] at this
          simp only [Nat.zero_add, List.drop_one, List.tail_cons] at this
          simp only [Bool.false_eq_true, if_false, this.1, this.2, List.cons_append, and_self]
        | true =>
          have hkeys2 := ht2.2
          rw [Leaves.keys_append, Leaves.keys_cons, List.nodup_append, List.nodup_append] at hkeys2
          obtain ⟨-, ⟨hm1, hm2, hm3⟩, hm4⟩ := hkeys2
          have hmem : k ∈ l2.keys := by rw [hl2]; simp
          have h1 : Leaves.out (pre ++ l :: a) k = pre ++ l :: a := Leaves.out_same
            (fun h => hm4 k h k (List.mem_append_left _ hmem) rfl)
          have h2 : Leaves.out b k = b := Leaves.out_same (fun h => hm3 k hmem k h rfl)
          have hout : Leaves.out ((pre ++ l :: a) ++ l2 :: b) k =
              (pre ++ l :: a) ++ { l2 with keys := l2.keys.filter fun x => decide (x ≠ k) } :: b := by
            have : Leaves.out ((pre ++ l :: a) ++ l2 :: b) k = Leaves.out (pre ++ l :: a) k ++
                { l2 with keys := l2.keys.filter fun x => decide (x ≠ k) } :: Leaves.out b k := by
              simp only [Leaves.out, List.map_append, List.map_cons]
            rw [this, h1, h2]
          have hok := Leaves.apply_ok ht2 (.out k)
          simp only [Leaves.apply, hout] at hok
          have hdf := drop_filter_next (i := 0) (rest := rest) hm1 (by rw [hl2]; rfl)
          have := ih (pre := pre ++ l :: a) (ls := b) (i := 0) hok (by
            simp only [hdf, List.length_tail]; omega)
          simp only [hdf] at this
          simp only [if_true, tcbChange, Leaves.apply, hout, this.1, this.2, List.cons_append, and_self]

/-- From the beginning: a leaf without records in front of the chain changes nothing. -/
theorem tcb_walk_start (gone : Bytes → Bool) (n : Nat) {t : Leaves} (ht : t.Ok) (hn : t.keys.length < n) :
    (walk tcbNext (fun k => tcbChange (.out k)) gone n (t, .start)).1 = t.flatMap (fun l => passing gone l.keys) ∧
    (walk tcbNext (fun k => tcbChange (.out k)) gone n (t, .start)).2.1 = true := by
  obtain ⟨m, rfl⟩ : ∃ m, n = m + 1 := ⟨n - 1, by omega⟩
  have hfa := Leaves.first_after [] t ht.1
  simp only [List.nil_append] at hfa
  have hnone : ∀ a : Leaves, Leaves.keys a = [] → a.flatMap (fun l => passing gone l.keys) = [] := by
    intro a ha
    refine List.flatMap_eq_nil_iff.2 (fun l hl => ?_)
    rw [List.flatMap_eq_nil_iff.1 ha l hl]; rfl
  cases hf : Leaves.first t with
  | none =>
    simp only [hf] at hfa
    simp only [walk, tcbNext, Leaves.next, hf, hnone t hfa, and_self]
  | some r =>
    obtain ⟨k, p⟩ := r
    simp only [hf] at hfa
    obtain ⟨-, a, l2, rest, b, hls, ha, hl2, hp2⟩ := hfa
    have hfm : t.flatMap (fun l => passing gone l.keys) =
        (k :: passing gone (if gone k then rest.tail else rest)) ++ b.flatMap (fun l => passing gone l.keys) := by
      rw [hls, List.flatMap_append, List.flatMap_cons, hnone a ha, hl2, passing_cons, List.nil_append]
    have hlen : t.keys.length = rest.length + 1 + (Leaves.keys b).length := by
      rw [hls, Leaves.keys_append, ha, Leaves.keys_cons, hl2]
      simp only [List.nil_append, List.length_append, List.length_cons]
    rw [hlen] at hn
    simp only [walk, tcbNext, Leaves.next, hf]
    rw [hfm, hp2]
    subst hls
    cases hg : gone k with
    | false =>
      have := tcb_walk gone m (pre := a) (l := l2) (ls := b) (i := 0) ht (by
        rw [hl2]; simp only [Nat.zero_add, List.drop_one, List.tail_cons]; omega)
      rw [hl2] at this
      simp only [Nat.zero_add, List.drop_one, List.tail_cons] at this
      simp only [Bool.false_eq_true, if_false, this.1, this.2, List.cons_append, and_self]
    | true =>
      have hkeys2 := ht.2
      rw [Leaves.keys_append, Leaves.keys_cons, List.nodup_append, List.nodup_append] at hkeys2
      obtain ⟨-, ⟨hm1, hm2, hm3⟩, hm4⟩ := hkeys2
      have hmem : k ∈ l2.keys := by rw [hl2]; simp
      have h1 : Leaves.out a k = a := Leaves.out_same
        (fun h => hm4 k h k (List.mem_append_left _ hmem) rfl)
      have h2 : Leaves.out b k = b := Leaves.out_same (fun h => hm3 k hmem k h rfl)
      have hout : Leaves.out (a ++ l2 :: b) k =
          a ++ { l2 with keys := l2.keys.filter fun x => decide (x ≠ k) } :: b := by
        have : Leaves.out (a ++ l2 :: b) k = Leaves.out a k ++
            { l2 with keys := l2.keys.filter fun x => decide (x ≠ k) } :: Leaves.out b k := by
          simp only [Leaves.out, List.map_append, List.map_cons]
        rw [this, h1, h2]
      have hok := Leaves.apply_ok ht (.out k)
      simp only [Leaves.apply, hout] at hok
      have hdf := drop_filter_next (i := 0) (rest := rest) hm1 (by rw [hl2]; rfl)
      have := tcb_walk gone m (pre := a) (ls := b) (i := 0) hok (by
        simp only [hdf, List.length_tail]; omega)
      simp only [hdf] at this
      simp only [if_true, tcbChange, Leaves.apply, hout, this.1, this.2, List.cons_append, and_self]

end Flare
