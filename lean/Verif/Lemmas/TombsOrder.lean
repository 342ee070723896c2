import Verif.Lemmas.TombsGroup

namespace Flare

/-! ### Copies that come in order -/

/-- The copies of `k` on the way to a node are in the order of what they stand for, and a deletion that a node has carried out
comes before all that are still on the way to it. -/
structure Queued (k : Bytes) (g : Group) : Prop where
  sorted : g.flying.Pairwise fun p q => p.dest = q.dest → p.copy.entry.key = k → q.copy.entry.key = k →
    p.copy.mark.rank ≤ q.copy.mark.rank
  away : ∀ f ∈ g.flying, f.dest ≠ 0
  gone : ∀ f ∈ g.flying, f.copy.entry.key = k → ∀ v, kstate (g.store f.dest) k = .gone v →
    (KState.gone v).rank ≤ f.copy.mark.rank

theorem Queued.notOvertaken {k : Bytes} {n : Nat} {g : Group} (h : Queued k g) (hg : TInv k n g) {f : Nat} {x : Flight}
    (hx : g.flying[f]? = some x) : NotOvertaken k (g.store x.dest) x.copy := by
  intro hk hc hl
  have hm := List.mem_of_getElem? hx
  obtain ⟨h1, h2, -⟩ := (hg.copies x hm).1.own hk
  have hok := (hg.nodes x.dest).1.ok
  rw [lookup_min_none hok] at hl
  rw [lastVersion_kstate hok]
  cases hs : kstate (g.store x.dest) k with
  | nothing => exact UInt64.pos_iff_ne_zero.2 h2
  | record y => exact absurd hs (hl y)
  | gone v =>
    have := h.gone x hm hk v hs
    unfold WriteReq.mark at this
    rw [if_neg hc] at this
    simp only [KState.rank] at this
    show v < x.copy.entry.version
    rw [UInt64.lt_iff_toNat_lt]
    have e : x.copy.entry.item.version = x.copy.entry.version := rfl
    rw [e] at this
    omega

theorem Queued.plain {k : Bytes} {n : Nat} {g : Group} (h : Queued k g) (hg : TInv k n g) {ev : GEv} (hi : ev.inOrder k g) :
    ev.plain k g := by
  cases ev with
  | write i env path r refused => exact hi
  | arrive f env => exact ⟨hi.1, hi.2.1, fun x hx => h.notOvertaken hg hx⟩
  | again f env => exact ⟨hi.1, hi.2.1, fun x hx => h.notOvertaken hg hx⟩
  | put d env => exact hi
  | lose f => trivial
  | answer a => trivial
  | read i env e => trivial
  | role i l => trivial
  | dump i j env k' => trivial
  | drop d => trivial

/-- Nothing is sent, and no node carries out a deletion that is behind a copy on its way. -/
theorem Queued.move {k : Bytes} {g g' : Group} (h : Queued k g) (hfl : g'.flying.Sublist g.flying)
    (hst : ∀ i v, kstate (g'.store i) k = .gone v → kstate (g.store i) k = .gone v ∨
      ∀ f ∈ g.flying, f.dest = i → f.copy.entry.key = k → (KState.gone v).rank ≤ f.copy.mark.rank) : Queued k g' := by
  refine ⟨h.sorted.sublist hfl, fun f hf => h.away f (hfl.mem hf), fun f hf hk v hv => ?_⟩
  rcases hst _ v hv with h1 | h1
  · exact h.gone f (hfl.mem hf) hk v h1
  · exact h1 f (hfl.mem hf) rfl hk

theorem Queued.first {k : Bytes} {g : Group} (h : Queued k g) {f : Nat} {x : Flight} (hx : g.flying[f]? = some x)
    (hk : x.copy.entry.key = k)
    (hi : ∀ (j : Nat) y, j < f → g.flying[j]? = some y → y.dest = x.dest → y.copy.entry.key ≠ k) :
    ∀ y ∈ g.flying, y.dest = x.dest → y.copy.entry.key = k → x.copy.mark.rank ≤ y.copy.mark.rank := by
  intro y hy hd hyk
  obtain ⟨m, hm⟩ := List.getElem?_of_mem hy
  obtain ⟨hm1, hm2⟩ := List.getElem?_eq_some_iff.1 hm
  obtain ⟨hf1, hf2⟩ := List.getElem?_eq_some_iff.1 hx
  rcases Nat.lt_trichotomy m f with hlt | heq | hgt
  · exact absurd hyk (hi m y hlt hm hd)
  · subst heq
    rw [hx] at hm
    cases hm
    exact Nat.le_refl _
  · have := List.pairwise_iff_getElem.1 h.sorted f m hf1 hm1 hgt
    rw [hf2, hm2] at this
    exact this hd.symm hk hyk

/-- What a copy leaves at its node. -/
theorem queued_arrive {k : Bytes} {n : Nat} {g : Group} (h : Queued k g) (hg : TInv k n g) {f : Nat} {x : Flight} {env : Env}
    (hx : g.flying[f]? = some x) (hp : env.putOk = true) (ho : env.outOk = true)
    (hi : x.copy.entry.key = k → ∀ (j : Nat) y, j < f → g.flying[j]? = some y → y.dest = x.dest → y.copy.entry.key ≠ k)
    (hr : Remembered (g.store x.dest) k → Remembered (atSlave (g.store x.dest) env x.copy) k) (i : Nat) (v : UInt64)
    (hv : kstate ((g.setStore x.dest (atSlave (g.store x.dest) env x.copy)).store i) k = .gone v) :
    kstate (g.store i) k = .gone v ∨
      ∀ f ∈ g.flying, f.dest = i → f.copy.entry.key = k → (KState.gone v).rank ≤ f.copy.mark.rank := by
  by_cases hid : i = x.dest
  · subst hid
    rw [setStore_self] at hv
    obtain ⟨-, a2, a3⟩ := fit_arrive (hg.nodes x.dest).1 hp ho (hg.copies x (List.mem_of_getElem? hx)).1 hr
      (h.notOvertaken hg hx)
    by_cases hk : x.copy.entry.key = k
    · rcases a3 hk with ⟨e, -⟩ | ⟨e, -⟩
      · right
        rw [← hv, e]
        exact h.first hx hk (hi hk)
      · exact .inl (e ▸ hv)
    · exact .inl (a2 hk ▸ hv)
  · left
    rw [Group.setStore] at hv
    simp only [if_neg hid] at hv
    exact hv

theorem Queued.step {rep : Bool} {k : Bytes} {l : List Nat} {n : Nat} {g : Group} {hist : KState → Prop} (h : Queued k g)
    (hp : TPhase rep k l g hist) (hl : 0 ∉ l) (hg : TInv k n g) (hn : n + 1 < 2 ^ 64) {ev : GEv} (hi : ev.inOrder k g)
    (hr : ∀ i, Remembered (g.store i) k → Remembered ((gStep rep g ev).store i) k) (hs : ev.steadyFor k g) :
    Queued k (gStep rep g ev) := by
  cases ev with
  | write i env path r refused =>
    by_cases hi0 : i = 0
    · subst hi0
      obtain ⟨f1, f2, f3⟩ := hi
      simp only [gStep, hp.master] at hr ⊢
      have hri := hr 0
      simp only [setStore_self] at hri
      obtain ⟨-, -, -, w3⟩ := fit_write (hg.nodes 0).1 f1 f2 f3 hri (hg.nodes 0).2 hn
      obtain ⟨new, hnew⟩ : ∃ new, new = (atMaster (g.store 0) env path r).2.toList.flatMap fun c =>
        (l.filter fun j => !refused.contains j).map fun j => (⟨g.next, j, c⟩ : Flight) := ⟨_, rfl⟩
      rw [← hnew]
      have hmem : ∀ f ∈ new, f.dest ∈ l ∧ (atMaster (g.store 0) env path r).2 = some f.copy := by
        intro f hf
        rw [hnew] at hf
        simp only [List.mem_flatMap, Option.mem_toList, List.mem_map, List.mem_filter] at hf
        obtain ⟨c, hc, j, ⟨hj, -⟩, rfl⟩ := hf
        exact ⟨hj, hc⟩
      have hlow : ∀ x, hist x → ∀ f ∈ new, f.copy.entry.key = k → x.rank ≤ f.copy.mark.rank := by
        intro x hx f hf hk
        rcases w3 with ⟨-, e⟩ | ⟨c, e0, -, -, e1⟩
        · exact absurd hk (e _ (hmem f hf).2)
        · have := (hmem f hf).2
          rw [e0] at this
          cases this
          exact Nat.le_of_lt (Nat.lt_of_le_of_lt (hp.top x hx) e1)
      have haway : ∀ f ∈ g.flying ++ new, f.dest ≠ 0 := by
        intro f hf
        rcases List.mem_append.1 hf with hf | hf
        · exact h.away f hf
        · intro h0
          exact hl (h0 ▸ (hmem f hf).1)
      refine ⟨?_, haway, ?_⟩
      · rw [List.pairwise_append]
        refine ⟨h.sorted, ?_, ?_⟩
        · rw [List.pairwise_iff_forall_sublist]
          intro a b hab _ _ _
          have ha := (hmem a (hab.mem (by simp))).2
          have hb := (hmem b (hab.mem (by simp))).2
          rw [ha] at hb
          rw [Option.some.inj hb]
          exact Nat.le_refl _
        · intro a ha b hb _ hak hbk
          exact hlow _ (hp.copies a ha hak) b hb hbk
      · intro f hf hk v hv
        have h0 := haway f hf
        simp only [Group.setStore, if_neg h0] at hv
        rcases List.mem_append.1 hf with hf | hf
        · exact h.gone f hf hk v hv
        · have := hp.nodes f.dest (by rw [hv]; simp)
          rw [hv] at this
          exact hlow _ this f hf hk
    · simp only [gStep, hp.others i hi0]
      exact h
  | arrive f env =>
    simp only [gStep] at hr ⊢
    cases hx : g.flying[f]? with
    | none => exact h
    | some x =>
      have hri := hr x.dest
      simp only [hx, setStore_self] at hri
      exact h.move (List.eraseIdx_sublist ..) (queued_arrive h hg hx hi.1 hi.2.1 (hi.2.2 x hx) hri)
  | again f env =>
    simp only [gStep] at hr ⊢
    cases hx : g.flying[f]? with
    | none => exact h
    | some x =>
      have hri := hr x.dest
      simp only [hx, setStore_self] at hri
      exact h.move (List.Sublist.refl _) (queued_arrive h hg hx hi.1 hi.2.1 (hi.2.2 x hx) hri)
  | lose f => exact h.move (List.eraseIdx_sublist ..) (fun _ _ h => .inl h)
  | answer a =>
    simp only [gStep]
    split
    · exact h
    · split
      · exact h
      · exact h.move (List.Sublist.refl _) (fun _ _ h => .inl h)
  | read i env e =>
    have hri := hr i
    simp only [gStep, setStore_self] at hri
    obtain ⟨-, r2⟩ := fit_get (hg.nodes i).1 env e hri
    refine h.move (List.Sublist.refl _) (fun j v hv => .inl ?_)
    simp only [gStep, Group.setStore] at hv
    split at hv
    · subst j; rw [r2] at hv; exact hv
    · exact hv
  | role i l => exact hs.elim
  | dump i j env k' =>
    have hri : Remembered (g.store i) k → Remembered ((MEvent.dump env k').apply (g.store i)).1 k := by
      have := hr i
      simp only [gStep, setStore_self] at this
      exact this
    obtain ⟨-, r2, -⟩ := fit_dumps (hg.nodes i).1 env k' hri
    refine h.move (List.Sublist.refl _) (fun j v hv => .inl ?_)
    simp only [gStep, Group.setStore] at hv
    split at hv
    · subst j; rw [r2] at hv; exact hv
    · exact hv
  | put d env =>
    simp only [gStep] at hr ⊢
    cases hx : g.dumps[d]? with
    | none => exact h
    | some x =>
      obtain ⟨j, e⟩ := x
      have hri := hr j
      simp only [hx, setStore_self] at hri
      obtain ⟨-, a2, a3⟩ := fit_put (hg.nodes j).1 hi.1 hi.2 (hg.dumps _ (List.mem_of_getElem? hx)).1 hri
      refine h.move (List.Sublist.refl _) (fun i v hv => .inl ?_)
      simp only [Group.setStore] at hv
      split at hv
      next hij =>
        subst hij
        by_cases hk : e.key = k
        · rcases a3 hk with ⟨g, -⟩ | ⟨g, -⟩
          · rw [g] at hv; cases hv
          · exact g ▸ hv
        · exact a2 hk ▸ hv
      · exact hv
  | drop d => exact h.move (List.Sublist.refl _) (fun _ _ h => .inl h)

theorem Queued.run {rep : Bool} {k : Bytes} {l : List Nat} (hl : 0 ∉ l) : ∀ {evs : List GEv} {n : Nat} {g : Group}
    {hist : KState → Prop}, Queued k g → TPhase rep k l g hist → TInv k n g → n + evs.length < 2 ^ 64 → InOrder rep k g evs →
    SteadyFor rep k g evs → Plainly rep k g evs
  | [], _, _, _, _, _, _, _, _, _ => trivial
  | ev :: evs, n, g, _, h, hp, hg, hn, hi, hs => by
    simp only [List.length_cons] at hn
    have hpl := h.plain hg hi.1
    obtain ⟨hist', hp'⟩ := hp.step hg (by omega) hpl hi.2.1 hs.1
    exact ⟨hpl, hi.2.1, (h.step hp hl hg (by omega) hi.1 hi.2.1 hs.1).run hl (evs := evs) hp'
      (hg.step (by omega) rep hpl hi.2.1).1 (by omega) hi.2.2 hs.2⟩

end Flare
