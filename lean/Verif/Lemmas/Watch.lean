import Verif.Spec.Watch

namespace Flare

/-! ### Ids -/

theorem genId_filter (map : List (UInt64 × Watched)) (c : UInt64) : ∀ n d, (∀ i, i < n → d + UInt64.ofNat i ≠ c) →
    genId (map.filter (·.1 ≠ c)) n d = genId map n d := by
  intro n
  induction n with
  | zero => intro d _; rfl
  | succ n ih =>
    intro d h
    have hd : d ≠ c := by
      have := h 0 (by omega)
      simpa using this
    have ha : (map.filter (·.1 ≠ c)).any (·.1 = d) = map.any (·.1 = d) := by
      rw [Bool.eq_iff_iff, List.any_eq_true, List.any_eq_true]
      constructor
      · rintro ⟨x, hx, e⟩
        exact ⟨x, (List.mem_filter.1 hx).1, e⟩
      · rintro ⟨x, hx, e⟩
        refine ⟨x, List.mem_filter.2 ⟨hx, ?_⟩, e⟩
        simp only [decide_eq_true_eq] at e ⊢
        rw [e]; exact hd
    simp only [genId, ha]
    rw [ih (d + 1)]
    intro i hi
    have := h (i + 1) (by omega)
    intro e
    apply this
    rw [← e]
    have h1 : UInt64.ofNat (i + 1) = UInt64.ofNat i + 1 := by
      rw [UInt64.ofNat_add]; rfl
    rw [h1, UInt64.add_assoc, UInt64.add_comm 1]

theorem genId_none (n : Nat) : ∀ (map : List (UInt64 × Watched)) (c : UInt64), n ≤ 2 ^ 64 → genId map n c = none →
    n ≤ map.length := by
  induction n with
  | zero => intros; omega
  | succ n ih =>
    intro map c hn h
    simp only [genId] at h
    cases ha : map.any (·.1 = c) with
    | false => rw [ha] at h; cases h
    | true =>
    rw [ha] at h
    simp only [if_true] at h
    rw [List.any_eq_true] at ha
    obtain ⟨x, hx, e⟩ := ha
    simp only [decide_eq_true_eq] at e
    rw [← genId_filter map c n (c + 1)] at h
    · have := ih _ _ (by omega) h
      have hlt : (map.filter (·.1 ≠ c)).length < map.length := by
        apply List.length_filter_lt_length_iff_exists.2
        exact ⟨x, hx, by simp [e]⟩
      omega
    · intro i hi h0
      have h1 : (1 : UInt64) + UInt64.ofNat i = 0 := by
        have h2 : c + (1 + UInt64.ofNat i) = c + 0 := by rw [← UInt64.add_assoc, h0, UInt64.add_zero]
        exact (UInt64.add_right_inj c).1 h2
      have h3 := congrArg UInt64.toNat h1
      rw [UInt64.toNat_add, UInt64.toNat_ofNat_of_lt' (by simp only [UInt64.size]; omega)] at h3
      simp only [UInt64.toNat_one, UInt64.toNat_zero] at h3
      omega

theorem genId_some {map : List (UInt64 × Watched)} {n : Nat} : ∀ {c id c' : UInt64}, genId map n c = some (id, c') →
    ∀ e ∈ map, e.1 ≠ id := by
  induction n with
  | zero => intro c id c' h; cases h
  | succ n ih =>
    intro c id c' h
    simp only [genId] at h
    split at h
    · exact ih h
    · rename_i ha
      cases h
      intro e he h0
      apply ha
      rw [List.any_eq_true]
      exact ⟨e, he, by simp [h0]⟩

theorem genId_total (map : List (UInt64 × Watched)) (c : UInt64) (h : map.length + 1 ≤ 2 ^ 64) :
    ∃ id c', genId map (map.length + 1) c = some (id, c') ∧ ∀ e ∈ map, e.1 ≠ id := by
  cases hg : genId map (map.length + 1) c with
  | none => have := genId_none _ _ _ h hg; omega
  | some x => exact ⟨x.1, x.2, rfl, genId_some hg⟩

/-! ### The map and the accesses -/

/-- An access with its id. -/
structure GoingOn where
  a : Nat
  id : UInt64
  start : Timespec
  warn : UInt32

/-- The map has exactly the accesses that are going on. -/
structure WatchInv (w : Watch) (s : Accesses) (L : List GoingOn) : Prop where
  held : w.held = L.map fun g => (g.a, g.id)
  map : w.map = L.map fun g => (g.id, ⟨g.start, msecToTimespec g.warn⟩)
  going : s.going = L.map fun g => (g.a, g.start.nanos, g.warn)
  normal : ∀ g ∈ L, g.start.Normal
  names : (L.map (·.a)).Nodup
  ids : (L.map (·.id)).Nodup
  warn : w.warn = s.warn
  ng : w.ng = s.ng
  polling : w.polling = s.polling

theorem nodup_inj {α β : Type} {f : α → β} {L : List α} (h : (L.map f).Nodup) {x y : α} (hx : x ∈ L) (hy : y ∈ L)
    (e : f x = f y) : x = y := by
  induction L with
  | nil => cases hx
  | cons z L ih =>
    simp only [List.map_cons, List.nodup_cons, List.mem_map, not_exists, not_and] at h
    rcases List.mem_cons.1 hx with rfl | hx' <;> rcases List.mem_cons.1 hy with rfl | hy'
    · rfl
    · exact absurd e.symm (h.1 y hy')
    · exact absurd e (h.1 x hx')
    · exact ih h.2 hx' hy'

theorem WatchInv.step {w : Watch} {s : Accesses} {L : List GoingOn} (h : WatchInv w s L) {e : WEv} (ha : s.Allows e) :
    ∃ L', WatchInv (w.step e) (s.step e) L' := by
  cases e with
  | start a now =>
    obtain ⟨h1, h2, h3⟩ := ha
    have hlen : w.map.length = s.going.length := by rw [h.map, h.going, List.length_map, List.length_map]
    obtain ⟨id, c', hg, hid⟩ := genId_total w.map w.next (by omega)
    refine ⟨⟨a, id, now, s.warn⟩ :: L, ?_⟩
    have hf : w.map.filter (·.1 ≠ id) = w.map := by
      rw [List.filter_eq_self]
      intro x hx
      simpa using hid x hx
    simp only [Watch.step, hg, hf, Accesses.step]
    refine ⟨by simp [h.held], by simp [h.map, h.warn], by simp [h.going], ?_, ?_, ?_, h.warn, h.ng, h.polling⟩
    · intro g hgm
      rcases List.mem_cons.1 hgm with rfl | hgm
      · exact h3
      · exact h.normal g hgm
    · simp only [List.map_cons, List.nodup_cons]
      refine ⟨?_, h.names⟩
      intro hm
      obtain ⟨g, hg', e⟩ := List.mem_map.1 hm
      exact h1 (g.a, g.start.nanos, g.warn) (by rw [h.going]; exact List.mem_map.2 ⟨g, hg', rfl⟩) e
    · simp only [List.map_cons, List.nodup_cons]
      refine ⟨?_, h.ids⟩
      intro hm
      obtain ⟨g, hg', e⟩ := List.mem_map.1 hm
      exact hid (g.id, ⟨g.start, msecToTimespec g.warn⟩) (by rw [h.map]; exact List.mem_map.2 ⟨g, hg', rfl⟩) e
  | finish a =>
    cases hf : w.held.find? (·.1 = a) with
    | none =>
      refine ⟨L, ?_⟩
      have hn : ∀ g ∈ L, g.a ≠ a := by
        intro g hg e
        have := List.find?_eq_none.1 hf (g.a, g.id) (by rw [h.held]; exact List.mem_map.2 ⟨g, hg, rfl⟩)
        simp [e] at this
      have hs : s.going.filter (·.1 ≠ a) = s.going := by
        rw [List.filter_eq_self]
        intro x hx
        rw [h.going] at hx
        obtain ⟨g, hg, rfl⟩ := List.mem_map.1 hx
        simpa using hn g hg
      simp only [Watch.step, hf, Accesses.step, hs]
      exact h
    | some x =>
      obtain ⟨b, id⟩ := x
      have hb : b = a := by simpa using List.find?_some hf
      have hm := List.mem_of_find?_eq_some hf
      rw [h.held] at hm
      obtain ⟨g, hg, e⟩ := List.mem_map.1 hm
      simp only [Prod.mk.injEq] at e
      have same : ∀ y ∈ L, (y.a ≠ a) ↔ (y.id ≠ id) := by
        intro y hy
        rw [← hb, ← e.1, ← e.2]
        constructor
        · intro hne hi; exact hne (congrArg GoingOn.a (nodup_inj h.ids hy hg hi))
        · intro hne hi; exact hne (congrArg GoingOn.id (nodup_inj h.names hy hg hi))
      refine ⟨L.filter (·.a ≠ a), ?_⟩
      simp only [Watch.step, hf, Accesses.step]
      refine ⟨?_, ?_, ?_, fun y hy => h.normal y (List.mem_filter.1 hy).1, ?_, ?_, h.warn, h.ng, h.polling⟩
      · simp only [h.held, List.filter_map]; rfl
      · simp only [h.map, List.filter_map]
        congr 1
        apply List.filter_congr
        intro y hy
        have := same y hy
        simp only [Function.comp]
        exact decide_eq_decide.2 this.symm
      · simp only [h.going, List.filter_map]; rfl
      · exact List.Nodup.sublist (List.Sublist.map _ List.filter_sublist) h.names
      · exact List.Nodup.sublist (List.Sublist.map _ List.filter_sublist) h.ids
  | fault => exact ⟨L, ⟨h.held, h.map, h.going, h.normal, h.names, h.ids, h.warn, h.ng, h.polling⟩⟩
  | poll now =>
    refine ⟨L, ?_⟩
    simp only [Watch.step]
    split <;> exact ⟨h.held, h.map, h.going, h.normal, h.names, h.ids, h.warn, h.ng, h.polling⟩
  | reload on interval warn ng => exact ⟨L, ⟨h.held, h.map, h.going, h.normal, h.names, h.ids, rfl, rfl, rfl⟩⟩

theorem reports_iff (w : Watch) (now : Timespec) (g : GoingOn) (hn : now.Normal) (hg : g.start.Normal) :
    w.reports now ⟨g.start, msecToTimespec g.warn⟩ = true ↔
      (g.warn.toNat : Int) * 1000000 < now.nanos - g.start.nanos ∧
      (w.ng.toNat : Int) * 1000000 < now.nanos - g.start.nanos := by
  have h := C46_observe now g.start g.warn w.ng hn hg
  have e : w.reports now ⟨g.start, msecToTimespec g.warn⟩ = true ↔ observe now g.start g.warn w.ng = .storageError := by
    simp only [Watch.reports, observe]
    cases checkTimestamp now g.start (msecToTimespec g.warn) with
    | none => simp
    | some d => cases isBigger d (msecToTimespec w.ng) <;> simp
  rw [e, h]
  by_cases c1 : now.nanos - g.start.nanos ≤ (g.warn.toNat : Int) * 1000000
  · simp only [if_pos c1, reduceCtorEq, false_iff]; omega
  · by_cases c2 : now.nanos - g.start.nanos ≤ (w.ng.toNat : Int) * 1000000
    · simp only [if_neg c1, if_pos c2, reduceCtorEq, false_iff]; omega
    · simp only [if_neg c1, if_neg c2, true_iff]; omega

theorem WatchInv.late {w : Watch} {s : Accesses} {L : List GoingOn} (h : WatchInv w s L) {now : Timespec}
    (hn : now.Normal) : (w.map.any fun x => w.reports now x.2) = true ↔ s.Late now := by
  simp only [List.any_eq_true, Accesses.Late, h.map, h.going, List.mem_map]
  constructor
  · rintro ⟨_, ⟨g, hg, rfl⟩, hr⟩
    have := (reports_iff w now g hn (h.normal g hg)).1 hr
    rw [h.ng] at this
    exact ⟨_, ⟨g, hg, rfl⟩, this⟩
  · rintro ⟨_, ⟨g, hg, rfl⟩, hr⟩
    refine ⟨_, ⟨g, hg, rfl⟩, (reports_iff w now g hn (h.normal g hg)).2 ?_⟩
    rw [h.ng]
    exact hr

theorem WatchInv.breaks {w : Watch} {s : Accesses} {L : List GoingOn} (h : WatchInv w s L) {e : WEv}
    (ha : s.Allows e) : (w.step e).broken = true ↔ w.broken = true ∨ s.Breaks e := by
  cases e with
  | start a now =>
    simp only [Watch.step, Accesses.Breaks, or_false]
    split <;> exact Iff.rfl
  | finish a =>
    simp only [Watch.step, Accesses.Breaks, or_false]
    split <;> exact Iff.rfl
  | fault => simp [Watch.step, Accesses.Breaks]
  | poll now =>
    simp only [Watch.step, Accesses.Breaks, ← h.polling, ← h.late ha]
    split
    · rename_i hp; simp [hp]
    · rename_i hp; simp [hp]
  | reload on interval warn ng => simp [Watch.step, Accesses.Breaks]

end Flare
