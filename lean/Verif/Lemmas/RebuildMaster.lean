import Verif.Lemmas.Rebuild
import Verif.Props.Replication

/-! What the master sends while a replica is built from it. -/
namespace Flare

theorem event_ok {m : Store} (hm : m.Ok) (ev : MEvent) : (ev.apply m).1.Ok := by
  cases ev with
  | write env path r => exact master_ok hm env path r
  | read env e => exact get_ok hm ..
  | dump env k => exact get_ok hm ..

/-- What a dumped record is. -/
theorem dumped {m : Store} (hm : m.Ok) {env : Env} {k : Bytes}
    (h : (get m env { key := k } {}).2.rc = .ok ∧ (get m env { key := k } {}).2.r ≠ some .notFound) :
    let e := (get m env { key := k } {}).2.e
    e.key = k ∧ e.Ok ∧ e.option = 0 ∧ lookup m Int64.minValue k = some e.item := by
  cases hd : dbGet m.db k with
  | none => rw [get_absent (e := { key := k }) hd] at h; exact absurd rfl h.2
  | some raw =>
    have hro := hm.1 _ _ hd
    cases hx : isExpired false (itemOf raw).expire env.now
    · rw [get_live (e := { key := k }) hm hd hx]
      refine ⟨rfl, ⟨?_, ?_⟩, rfl, ?_⟩
      · simp only [List.length_drop]
        exact (rawOk_size hro { key := k }).symm
      · simp only [List.length_drop]
        have h1 := hro.1
        have h2 := hro.2.1
        omega
      · rw [lookup_min hm]
        simp only [kstate, hd]
        rfl
    · exfalso
      apply h.2
      simp [get, getRead_some (e := { key := k }) hd hro, hx]

/-- One event at the master, seen from key `k`. -/
structure EventFacts (k : Bytes) (m : Store) (ev : MEvent) : Prop where
  ok : (ev.apply m).1.Ok
  absolute : AbsoluteStore (ev.apply m).1
  copies : ∀ c, (ev.apply m).2 = some (.copy c) →
    Sendable c 8192 ∧ Absolute c.entry.expire ∧ c.value = 0 ∧ (c.cmd = .set → c.entry.Ok) ∧
      (c.cmd = .set ∨ c.cmd = .delete ∨ c.cmd = .touch)
  dumps : ∀ e, (ev.apply m).2 = some (.dump e) →
    e.Ok ∧ lookup m Int64.minValue e.key = some e.item
  changed : ∀ c, (ev.apply m).2 = some (.copy c) → c.entry.key = k → c.cmd ≠ .touch →
    ∀ t, lookup (ev.apply m).1 t k =
      if c.cmd = .set then KState.visible t (.record c.entry.item) else none
  unchanged : (∀ c, (ev.apply m).2 = some (.copy c) → c.entry.key ≠ k) →
    (∀ t, ev.now ≤ t → lookup (ev.apply m).1 t k = lookup m t k) ∧
    (∀ t, lookup (ev.apply m).1 t k = lookup m t k ∨ lookup (ev.apply m).1 t k = none)

theorem absolute_of_or {m m' : Store} (ha : AbsoluteStore m)
    (h : ∀ t k, lookup m' t k = lookup m t k ∨ lookup m' t k = none) : AbsoluteStore m' := by
  intro t k it hl
  rcases h t k with h3 | h3
  · exact ha t k it (by rw [← h3]; exact hl)
  · exact absurd (h3.symm.trans hl) (by simp)

theorem event_facts {m : Store} (hm : m.Ok) (ha : AbsoluteStore m) (k : Bytes) {ev : MEvent}
    (hev : ev.clientWrite) : EventFacts k m ev := by
  have hok := event_ok hm ev
  cases ev with
  | write env path r =>
    obtain ⟨hr, hpath⟩ := hev
    obtain ⟨m', c, hmc⟩ : ∃ m' c, atMaster m env path r = (m', c) := ⟨_, _, rfl⟩
    have hap : (MEvent.write env path r).apply m = (m', c.map .copy) := by
      simp only [MEvent.apply, hmc]
    rw [hap] at hok
    cases c with
    | none =>
      have hn := master_no_copy hm (env := env) (path := path) (r := r) (by rw [hmc])
      rw [hmc] at hn
      constructor
      · rw [hap]; exact hok
      · rw [hap]; exact absolute_of_or ha hn.2
      · rw [hap]; intro c h; cases h
      · rw [hap]; intro c h; cases h
      · rw [hap]; intro c h; cases h
      · rw [hap]; intro _; exact ⟨fun t ht => hn.1 t k ht, fun t => hn.2 t k⟩
    | some c =>
      have hf := master_copy hm (env := env) (path := path) hr.2.2.2 (by rw [hmc])
      rw [hmc] at hf
      obtain ⟨hf, hcp⟩ := hf
      obtain ⟨hc, ha'⟩ := copy_absolute ha hr.2.2.1 hf
      constructor
      · rw [hap]; exact hok
      · rw [hap]; exact ha'
      · rw [hap]; intro c' h; cases h
        refine ⟨⟨?_, ?_, ?_, absolute_nonneg hc⟩, hc, hf.value, fun h => (hf.ofSet h).1, hf.kinds⟩
        · rw [hf.key]; exact hr.1
        · rw [hcp]; exact hpath
        · rw [hf.option]; exact hr.2.1
      · rw [hap]; intro c h; cases h
      · rw [hap]; intro c' h hk hnt t; cases h
        rw [← hk, hf.key]
        rcases hf.kinds with h | h | h
        · rw [if_pos h, (hf.ofSet h).2.1]; rfl
        · rw [if_neg (by simp [h]), (hf.ofDelete h).1]
        · exact absurd h hnt
      · rw [hap]; intro h
        have hk := h c rfl
        rw [hf.key] at hk
        have h1 : ∀ t, lookup m' t k = lookup m t k := fun t =>
          lookup_congr_db _ (hf.others k (fun h => hk h.symm)) t
        exact ⟨fun t _ => h1 t, fun t => Or.inl (h1 t)⟩
  | read env e =>
    constructor
    · exact hok
    · exact absolute_of_or ha (fun t k => get_lookup_or env e {} t k)
    · intro c h; cases h
    · intro c h; cases h
    · intro c h; cases h
    · intro _
      exact ⟨fun t ht => get_lookup hm env e {} ht k, fun t => get_lookup_or env e {} t k⟩
  | dump env k' =>
    constructor
    · exact hok
    · exact absolute_of_or ha (fun t k => get_lookup_or env { key := k' } {} t k)
    · intro c h
      simp only [MEvent.apply] at h
      split at h <;> cases h
    · intro e h
      simp only [MEvent.apply] at h
      split at h
      next hg =>
        cases h
        obtain ⟨h1, h2, -, h4⟩ := dumped hm hg
        exact ⟨h2, by rw [h1]; exact h4⟩
      · cases h
    · intro c h
      simp only [MEvent.apply] at h
      split at h <;> cases h
    · intro _
      exact ⟨fun t ht => get_lookup hm env _ {} ht k, fun t => get_lookup_or env _ {} t k⟩

/-- A whole run of the master, seen from key `k`. -/
structure MasterFacts (k : Bytes) (m : Store) (evs : List MEvent) : Prop where
  ok : (masterRun m evs).1.Ok
  copies : ∀ c, .copy c ∈ (masterRun m evs).2 →
    Sendable c 8192 ∧ Absolute c.entry.expire ∧ c.value = 0 ∧ (c.cmd = .set → c.entry.Ok) ∧
      (c.cmd = .set ∨ c.cmd = .delete ∨ c.cmd = .touch)
  dumps : ∀ e, .dump e ∈ (masterRun m evs).2 → e.key = k →
    e.Ok ∧ (lookup m Int64.minValue k = some e.item ∨
      ∃ c ∈ sentCopies k (masterRun m evs).2, c.cmd = .set ∧ c.entry.item = e.item)
  unchanged : sentCopies k (masterRun m evs).2 = [] → ∀ t, (∀ ev ∈ evs, ev.now ≤ t) →
    lookup (masterRun m evs).1 t k = lookup m t k
  changed : ∀ cs c, sentCopies k (masterRun m evs).2 = cs ++ [c] →
    ∀ t, (∀ ev ∈ evs, ev.now ≤ t) →
    lookup (masterRun m evs).1 t k =
      if c.cmd = .set then KState.visible t (.record c.entry.item) else none

theorem master_facts (k : Bytes) : ∀ (evs : List MEvent) {m : Store}, m.Ok → AbsoluteStore m →
    (∀ ev ∈ evs, ev.clientWrite) →
    (∀ c ∈ sentCopies k (masterRun m evs).2, c.cmd ≠ .touch) → MasterFacts k m evs := by
  intro evs
  induction evs with
  | nil =>
    intro m hm ha _ _
    constructor
    · exact hm
    · intro c h; cases h
    · intro e h; cases h
    · intro _ t _; rfl
    · intro cs c h; simp [masterRun, sentCopies] at h
  | cons ev evs ih =>
    intro m hm ha hev hnt
    have hf := event_facts hm ha k (hev ev (by simp))
    obtain ⟨m1, x, hap⟩ : ∃ m1 x, ev.apply m = (m1, x) := ⟨_, _, rfl⟩
    obtain ⟨m2, xs, hrun⟩ : ∃ m2 xs, masterRun m1 evs = (m2, xs) := ⟨_, _, rfl⟩
    have hrun' : masterRun m (ev :: evs) = (m2, x.toList ++ xs) := by
      simp only [masterRun, hap, hrun]
      cases x <;> rfl
    have hsplit : sentCopies k (x.toList ++ xs) = sentCopies k x.toList ++ sentCopies k xs := by
      simp only [sentCopies, List.filterMap_append]
    rw [hrun', hsplit] at hnt
    have ih := ih (m := m1) (by rw [← show (ev.apply m).1 = m1 by rw [hap]]; exact hf.ok)
      (by rw [← show (ev.apply m).1 = m1 by rw [hap]]; exact hf.absolute)
      (fun e he => hev e (by simp [he]))
      (by rw [hrun]; exact fun c hc => hnt c (List.mem_append.2 (Or.inr hc)))
    obtain ⟨i1, i2, i3, i4, i5⟩ := ih
    obtain ⟨e1, e2, e3, e4, e5, e6⟩ := hf
    rw [hrun] at i1 i2 i3 i4 i5
    rw [hap] at e1 e2 e3 e4 e5 e6
    simp only at i1 i2 i3 i4 i5 e1 e2 e3 e4 e5 e6
    have hnone : sentCopies k x.toList = [] → ∀ c, x = some (.copy c) → c.entry.key ≠ k := by
      intro h c hx hk
      subst hx
      simp [sentCopies, hk] at h
    have hmem : ∀ c, c ∈ sentCopies k x.toList → x = some (.copy c) ∧ c.entry.key = k := by
      intro c h
      cases x with
      | none => simp [sentCopies] at h
      | some y =>
        cases y with
        | dump e => simp [sentCopies] at h
        | copy c' =>
          simp only [sentCopies, Option.toList, List.filterMap_cons, List.filterMap_nil] at h
          by_cases hk : c'.entry.key = k
          · simp only [hk, if_true, List.mem_singleton] at h; subst h; exact ⟨rfl, hk⟩
          · simp [hk] at h
    constructor
    · rw [hrun']; exact i1
    · rw [hrun']; intro c hc
      rcases List.mem_append.1 hc with h | h
      · exact e3 c (by simpa using h)
      · exact i2 c h
    · rw [hrun', hsplit]; intro e he hk
      rcases List.mem_append.1 he with h | h
      · obtain ⟨g1, g2⟩ := e4 e (by simpa using h)
        rw [hk] at g2
        exact ⟨g1, Or.inl g2⟩
      · obtain ⟨g1, g2⟩ := i3 e h hk
        refine ⟨g1, ?_⟩
        rcases g2 with g2 | ⟨c, hc, g2⟩
        · cases hx : sentCopies k x.toList with
          | nil =>
            rcases (e6 (hnone hx)).2 Int64.minValue with h3 | h3
            · rw [h3] at g2; exact Or.inl g2
            · rw [h3] at g2; cases g2
          | cons c cs =>
            obtain ⟨h1, h2⟩ := hmem c (by rw [hx]; simp)
            rw [e5 c h1 h2 (hnt c (by rw [hx]; simp))] at g2
            split at g2
            next hset =>
              right
              refine ⟨c, by simp, hset, ?_⟩
              simp only [KState.visible, if_neg (not_expired_min _), Option.some.injEq] at g2
              exact g2
            · cases g2
        · exact Or.inr ⟨c, List.mem_append.2 (Or.inr hc), g2⟩
    · rw [hrun', hsplit]; intro h t ht
      rw [List.append_eq_nil_iff] at h
      rw [i4 h.2 t (fun e he => ht e (by simp [he]))]
      exact (e6 (hnone h.1)).1 t (ht ev (by simp))
    · rw [hrun', hsplit]; intro cs c h t ht
      by_cases hxs : sentCopies k xs = []
      · rw [hxs, List.append_nil] at h
        rw [i4 hxs t (fun e he => ht e (by simp [he]))]
        obtain ⟨h1, h2⟩ := hmem c (by rw [h]; simp)
        exact e5 c h1 h2 (hnt c (by rw [h]; simp)) t
      · obtain ⟨cs', c', hc'⟩ : ∃ cs' c', sentCopies k xs = cs' ++ [c'] :=
          ⟨_, _, (List.dropLast_concat_getLast hxs).symm⟩
        rw [hc', ← List.append_assoc] at h
        have := List.append_inj' h rfl
        simp only [List.cons.injEq, and_true] at this
        rw [← this.2]
        exact i5 cs' c' hc' t (fun e he => ht e (by simp [he]))

end Flare
