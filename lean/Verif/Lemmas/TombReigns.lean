import Verif.Spec.TombReigns
import Verif.Lemmas.TombsGroup
import Verif.Lemmas.Reigns

namespace Flare

theorem traceOf_state {s : Store} (hs : s.Ok) (k : Bytes) : (traceOf s k).state = kstate s k := by
  unfold traceOf
  cases hl : lookup s Int64.minValue k with
  | some x => exact (kstate_of_lookup hs hl).symm
  | none =>
    have hn := (lookup_min_none hs).1 hl
    simp only
    split
    next hr =>
      rw [kstate_remembered] at hr
      rw [lastVersion_kstate hs]
      cases hst : kstate s k with
      | nothing => exact absurd hst hr
      | record x => exact absurd hst (hn x)
      | gone v => rfl
    next hr =>
      exact (Classical.byContradiction fun h => hr (kstate_remembered.2 fun e => h e.symm))

theorem trace_rank (x : Trace) : x.rank = x.state.rank := by cases x <;> rfl

theorem trace_mark (c : WriteReq) : c.trace.state = c.mark := by
  unfold WriteReq.trace WriteReq.mark
  split <;> rfl

/-- What is kept while the roles change: `L` are the nodes that are still there; below `base` a node may hold something that the
others have never heard of, and may lack what was answered. -/
structure TPast (rep : Bool) (k : Bytes) (L : Nat → Prop) (base : Nat → Nat) (g : Group) (hist : KState → Prop) : Prop where
  unique : ∀ x y, hist x → hist y → x.rank = y.rank → x = y
  pos : ∀ x, hist x → x.rank ≠ 0
  nodes : ∀ i, L i → kstate (g.store i) k ≠ .nothing →
    hist (kstate (g.store i) k) ∨ (kstate (g.store i) k).rank < base i
  copies : ∀ f ∈ g.flying, f.copy.entry.key = k → L f.dest → hist f.copy.mark ∨ f.copy.mark.rank < base f.dest
  dumps : ∀ d ∈ g.dumps, d.2.key = k → L d.1 → hist (.record d.2.item) ∨ (KState.record d.2.item).rank < base d.1
  acked : ∀ p ∈ g.acked, p.1.entry.key = k → p.2.done → isSync p.1.entry.option rep = true →
    hist p.2.mark ∧ ∀ j, L j → p.2.mark.rank ≤ base j ∨ p.2.mark.rank ≤ (kstate (g.store j) k).rank
  fresh : ∀ p ∈ g.open_, p.1 < g.next

/-- What is kept while a node is the master. -/
structure TReign (rep : Bool) (k : Bytes) (since : Nat) (e : Era) (base : Nat → Nat) (g : Group) (hist : KState → Prop) :
    Prop where
  past : TPast rep k (fun i => i = e.master ∨ i ∈ e.slaves) base g hist
  full : ∀ j, j = e.master ∨ j ∈ e.slaves ∧ j ∉ e.joined → base j ≤ (kstate (g.store j) k).rank
  master : g.slaves e.master = some e.slaves
  others : ∀ i, i ≠ e.master → g.slaves i = none
  top : ∀ x, hist x → x.rank ≤ (kstate (g.store e.master) k).rank
  opens : ∀ p ∈ g.open_, since ≤ p.1 → p.2.1.entry.key = k → p.2.2.done →
    hist p.2.2.mark ∧ ∀ j ∈ e.slaves,
      (∃ f ∈ g.flying, f.id = p.1 ∧ f.dest = j ∧ f.copy.entry.key = k ∧ f.copy.mark = p.2.2.mark) ∨
        p.2.2.mark.rank ≤ (kstate (g.store j) k).rank
  since : since ≤ g.next

/-- The stores move on without anything new. -/
theorem TPast.move {rep : Bool} {k : Bytes} {L : Nat → Prop} {base : Nat → Nat} {g g' : Group} {hist : KState → Prop}
    (h : TPast rep k L base g hist)
    (hup : ∀ i, Rise (kstate (g.store i) k) (kstate (g'.store i) k))
    (hn : ∀ i, L i → kstate (g'.store i) k ≠ .nothing →
      hist (kstate (g'.store i) k) ∨ (kstate (g'.store i) k).rank < base i)
    (hf : ∀ f ∈ g'.flying, f.copy.entry.key = k → f ∈ g.flying)
    (hd : ∀ d ∈ g'.dumps, d.2.key = k → L d.1 → hist (.record d.2.item) ∨ (KState.record d.2.item).rank < base d.1)
    (ho : ∀ p ∈ g'.open_, p.1 < g'.next)
    (ha : ∀ p ∈ g'.acked, p.1.entry.key = k → p ∈ g.acked) : TPast rep k L base g' hist :=
  ⟨h.unique, h.pos, hn, fun f h1 h2 => h.copies f (hf f h1 h2) h2, hd, fun p hp h1 h2 h3 =>
    have ⟨a, b⟩ := h.acked p (ha p hp h1) h1 h2 h3
    ⟨a, fun j hj => (b j hj).imp id fun b => Nat.le_trans b (hup j).le⟩, ho⟩

theorem TPast.step {rep : Bool} {k : Bytes} {L : Nat → Prop} {base : Nat → Nat} {n : Nat} {g : Group} {hist : KState → Prop}
    (h : TPast rep k L base g hist) (hg : TInv k n g) (hn : n + 1 < 2 ^ 64) {ev : GEv} (hf : ev.plain k g)
    (hr : ∀ i, Remembered (g.store i) k → Remembered ((gStep rep g ev).store i) k)
    (hs : ev.idleFor k g) : TPast rep k L base (gStep rep g ev) hist := by
  obtain ⟨-, hup⟩ := hg.step hn rep hf hr
  cases ev with
  | write i env path r refused =>
    cases hl : g.slaves i with
    | none =>
      have : gStep rep g (.write i env path r refused) = g := by simp only [gStep, hl]
      rw [this]; exact h
    | some l =>
      obtain ⟨f1, f2, f3⟩ := hf
      have hri : Remembered (g.store i) k → Remembered (atMaster (g.store i) env path r).1 k := by
        have := hr i
        simp only [gStep, hl, setStore_self] at this
        exact this
      obtain ⟨w1, w2, -, w3⟩ := fit_write (hg.nodes i).1 f1 f2 f3 hri (hg.nodes i).2 hn
      have hcode : ∀ c, (atMaster (g.store i) env path r).2 = some c → c.entry.key ≠ k := fun c hc => by
        rw [(master_copy (hg.nodes i).1.ok f1.2.2.2 hc).1.key]; exact hs
      have hks : kstate (atMaster (g.store i) env path r).1 k = kstate (g.store i) k := by
        rcases w3 with ⟨e, -⟩ | ⟨c, e0, e1, -⟩
        · exact e
        · exact absurd e1 (hcode c e0)
      refine h.move hup ?_ ?_ (by simp only [gStep, hl]; exact h.dumps) ?_ ?_
      · intro j hj
        simp only [gStep, hl, Group.setStore]
        split
        · subst_vars
          rw [hks]; exact h.nodes _ hj
        · exact h.nodes j hj
      · intro f hf hk
        simp only [gStep, hl] at hf
        rcases List.mem_append.1 hf with hf | hf
        · exact hf
        · simp only [List.mem_flatMap, Option.mem_toList, List.mem_map] at hf
          obtain ⟨c, hc, j, -, rfl⟩ := hf
          exact absurd hk (hcode c hc)
      · intro p hp
        simp only [gStep, hl] at hp ⊢
        rcases List.mem_append.1 hp with hp | hp
        · exact Nat.lt_succ_of_lt (h.fresh p hp)
        · rw [List.mem_singleton] at hp
          subst hp
          exact Nat.lt_succ_self _
      · intro p hp _
        simp only [gStep, hl] at hp
        exact hp
  | arrive f env =>
    simp only [gStep] at hup hr ⊢
    cases hx : g.flying[f]? with
    | none => exact h
    | some x =>
      simp only [hx] at hup hr ⊢
      obtain ⟨p1, p2, p3⟩ := hf
      have hri := hr x.dest
      simp only [setStore_self] at hri
      have hxm := List.mem_of_getElem? hx
      refine h.move hup ?_ (fun y hy _ => List.mem_of_mem_eraseIdx hy) h.dumps h.fresh (fun p hp _ => hp)
      intro i hi
      simp only [Group.setStore]
      split
      · subst_vars
        exact (arrive_hist' (hg.nodes x.dest).1 p1 p2 (hg.copies x hxm).1 hri (p3 x hx)
          (hist := fun y => hist y ∨ y.rank < base x.dest) (h.nodes _ hi) (fun hk => h.copies x hxm hk hi)).1
      · exact h.nodes i hi
  | again f env =>
    simp only [gStep] at hup hr ⊢
    cases hx : g.flying[f]? with
    | none => exact h
    | some x =>
      simp only [hx] at hup hr ⊢
      obtain ⟨p1, p2, p3⟩ := hf
      have hri := hr x.dest
      simp only [setStore_self] at hri
      have hxm := List.mem_of_getElem? hx
      refine h.move hup ?_ (fun y hy _ => hy) h.dumps h.fresh (fun p hp _ => hp)
      intro i hi
      simp only [Group.setStore]
      split
      · subst_vars
        exact (arrive_hist' (hg.nodes x.dest).1 p1 p2 (hg.copies x hxm).1 hri (p3 x hx)
          (hist := fun y => hist y ∨ y.rank < base x.dest) (h.nodes _ hi) (fun hk => h.copies x hxm hk hi)).1
      · exact h.nodes i hi
  | lose f =>
    exact h.move hup h.nodes (fun y hy _ => List.mem_of_mem_eraseIdx hy) h.dumps h.fresh (fun p hp _ => hp)
  | answer a =>
    simp only [gStep] at hup ⊢
    cases hx : g.open_[a]? with
    | none => exact h
    | some p =>
      obtain ⟨id, r, o⟩ := p
      have hk : r.entry.key ≠ k := hs _ hx
      simp only [hx] at hup ⊢
      split
      · exact h
      · refine h.move (fun _ => .refl _) h.nodes (fun y hy _ => hy) h.dumps
          (fun p hp => h.fresh p (List.mem_of_mem_eraseIdx hp)) ?_
        intro p hp hpk
        simp only at hp
        split at hp
        · exact hp
        · rcases List.mem_append.1 hp with hp | hp
          · exact hp
          · rw [List.mem_singleton] at hp
            subst hp
            exact absurd hpk hk
  | read i env e =>
    refine h.move hup ?_ (fun y hy _ => hy) h.dumps h.fresh (fun p hp _ => hp)
    have hri := hr i
    simp only [gStep, setStore_self] at hri
    obtain ⟨-, r2⟩ := fit_get (hg.nodes i).1 env e hri
    intro j hj
    simp only [gStep, Group.setStore]
    split
    · subst_vars
      rw [r2]; exact h.nodes _ hj
    · exact h.nodes j hj
  | role i l => exact ⟨h.unique, h.pos, h.nodes, h.copies, h.dumps, h.acked, h.fresh⟩
  | dump i j env k' =>
    have hri : Remembered (g.store i) k → Remembered ((MEvent.dump env k').apply (g.store i)).1 k := by
      have := hr i
      simp only [gStep, setStore_self] at this
      exact this
    obtain ⟨-, r2, r3⟩ := fit_dumps (hg.nodes i).1 env k' hri
    refine h.move hup ?_ (fun y hy _ => hy) ?_ h.fresh (fun p hp _ => hp)
    · intro j hj
      simp only [gStep, Group.setStore]
      split
      · subst_vars
        rw [r2]; exact h.nodes _ hj
      · exact h.nodes j hj
    · intro d hd hk hL
      simp only [gStep] at hd
      rcases List.mem_append.1 hd with hd | hd
      · exact h.dumps d hd hk hL
      · split at hd
        next e he =>
          rw [List.mem_singleton] at hd
          subst hd
          exact absurd ((r3 e he).2.1.symm.trans hk) hs
        · cases hd
  | put d env =>
    simp only [gStep] at hup hr ⊢
    cases hx : g.dumps[d]? with
    | none => exact h
    | some x =>
      obtain ⟨j, e⟩ := x
      simp only [hx] at hup hr ⊢
      have hri := hr j
      simp only [setStore_self] at hri
      have hxm := List.mem_of_getElem? hx
      refine h.move hup ?_ (fun y hy _ => hy) (fun d hd hk => h.dumps d (List.mem_of_mem_eraseIdx hd) hk) h.fresh
        (fun p hp _ => hp)
      intro i hi
      simp only [Group.setStore]
      split
      · subst_vars
        exact put_hist' (hg.nodes i).1 hf.1 hf.2 (hg.dumps _ hxm).1 hri (hist := fun y => hist y ∨ y.rank < base i)
          (h.nodes _ hi) (fun hk => h.dumps _ hxm hk hi)
      · exact h.nodes i hi
  | drop d =>
    exact h.move hup h.nodes (fun y hy _ => hy) (fun d hd hk => h.dumps d (List.mem_of_mem_eraseIdx hd) hk) h.fresh
      (fun p hp _ => hp)

theorem TPast.run {rep : Bool} {k : Bytes} {L : Nat → Prop} {base : Nat → Nat} {hist : KState → Prop} :
    ∀ {evs : List GEv} {n : Nat} {g : Group},
    TPast rep k L base g hist → TInv k n g → n + evs.length < 2 ^ 64 → Plainly rep k g evs → IdleFor rep k g evs →
    TPast rep k L base (gRun rep g evs) hist
  | [], _, _, h, _, _, _, _ => h
  | ev :: evs, n, g, h, hg, hn, hf, hs => by
    simp only [List.length_cons] at hn
    exact (h.step hg (by omega) hf.1 hf.2.1 hs.1).run (evs := evs) (hg.step (by omega) rep hf.1 hf.2.1).1 (by omega) hf.2.2 hs.2

/-- The bases of an era. -/
def Era.mark (k : Bytes) (e : Era) (base : Nat → Nat) (g : Group) (i : Nat) : Nat :=
  if i ∈ e.joined then (kstate (g.store e.master) k).rank else base i

/-- A new reign begins. -/
theorem TPast.succeed {rep : Bool} {k : Bytes} {L : Nat → Prop} {base : Nat → Nat} {n : Nat} {g : Group}
    {hist : KState → Prop} (h : TPast rep k L base g hist) (hg : TInv k n g) {C : Nat → Prop}
    (hC : ∀ i, C i → L i ∧ base i ≤ (kstate (g.store i) k).rank) {e : Era} (hs : TakesOver k C g e) :
    ∃ hist', TReign rep k g.next e (e.mark k base g) g hist' := by
  have hst : ∀ i, (traceOf (g.store i) k).state = kstate (g.store i) k := fun i => traceOf_state (hg.nodes i).1.ok k
  have hv : ∀ i, (traceOf (g.store i) k).rank = (kstate (g.store i) k).rank := fun i => by rw [trace_rank, hst]
  have hL : ∀ i, i = e.master ∨ i ∈ e.slaves → i ∉ e.joined → C i := by
    rintro i (rfl | hi) hj
    · exact hs.from_master.1
    · exact hs.from_slaves i hi hj
  have hbj : ∀ i, i ∈ e.joined → e.mark k base g i = (kstate (g.store e.master) k).rank := fun i hi => if_pos hi
  have hbn : ∀ i, i ∉ e.joined → e.mark k base g i = base i := fun i hi => if_neg hi
  -- what a node that has everything holds is in the history
  have hwhole : ∀ i, C i → kstate (g.store i) k ≠ .nothing → hist (kstate (g.store i) k) := by
    intro i hi hx
    rcases h.nodes i (hC i hi).1 hx with h1 | h1
    · exact h1
    · exact absurd (Nat.lt_of_lt_of_le h1 (hC i hi).2) (Nat.lt_irrefl _)
  have hold : ∀ x : Trace, x.state ≠ .nothing → x.Behind k (g.store e.master) →
      (hist x.state ∧ x.state.rank ≤ (kstate (g.store e.master) k).rank) ∨
        x.state.rank < (kstate (g.store e.master) k).rank := by
    rintro x hx0 (hx | hx)
    · right
      rw [hv, trace_rank] at hx
      exact hx
    · left
      have hx := congrArg Trace.state hx
      rw [hst] at hx
      rw [hx] at hx0 ⊢
      exact ⟨hwhole _ hs.from_master.1 hx0, Nat.le_refl _⟩
  have hle : ∀ i, i = e.master ∨ i ∈ e.slaves → i ∉ e.joined →
      (kstate (g.store i) k).rank ≤ (kstate (g.store e.master) k).rank := by
    rintro i (rfl | hi) hj
    · exact Nat.le_refl _
    · rw [← hv, ← hv]; exact hs.newest i hi hj
  have hmne : ∀ c : WriteReq, c.mark ≠ .nothing := by
    intro c
    unfold WriteReq.mark
    split <;> simp
  refine ⟨fun x => hist x ∧ x.rank ≤ (kstate (g.store e.master) k).rank,
    ⟨fun x y hx hy => h.unique x y hx.1 hy.1, fun x hx => h.pos x hx.1, ?_, ?_, ?_, ?_, h.fresh⟩, ?_, hs.knows, hs.others,
    fun x hx => hx.2, ?_, Nat.le_refl _⟩
  · intro i hi hx
    by_cases hj : i ∈ e.joined
    · rw [hbj i hj]
      have := hold (traceOf (g.store i) k) (by rw [hst]; exact hx)
        (hs.old i hj fun h0 => hx (by rw [← hst, h0]; rfl))
      rw [hst] at this
      exact this
    · exact .inl ⟨hwhole i (hL i hi hj) hx, hle i hi hj⟩
  · intro f hf hk hd
    by_cases hj : f.dest ∈ e.joined
    · rw [hbj _ hj]
      have := hold f.copy.trace (by rw [trace_mark]; exact hmne _) (hs.old_flying f hf hk hj)
      rw [trace_mark] at this
      exact this
    · rw [hbn _ hj]
      refine (h.copies f hf hk (hC _ (hL _ hd hj)).1).imp (fun h => ⟨h, ?_⟩) id
      have := hs.flying f hf hk (hd.imp id fun h => ⟨h, hj⟩)
      rw [hv, trace_rank, trace_mark] at this
      exact this
  · intro f hf hk hd
    by_cases hj : f.1 ∈ e.joined
    · rw [hbj _ hj]
      exact hold (.value f.2.item) (by simp [Trace.state]) (hs.old_dumps f hf hk hj)
    · rw [hbn _ hj]
      refine (h.dumps f hf hk (hC _ (hL _ hd hj)).1).imp (fun h => ⟨h, ?_⟩) id
      have := hs.dumps f hf hk (hd.imp id fun h => ⟨h, hj⟩)
      rw [hv] at this
      exact this
  · intro p hp h1 h2 h3
    obtain ⟨a, b⟩ := h.acked p hp h1 h2 h3
    have hC' : ∀ i, C i → p.2.mark.rank ≤ (kstate (g.store i) k).rank := fun i hi =>
      (b i (hC i hi).1).elim (fun h => Nat.le_trans h (hC i hi).2) id
    refine ⟨⟨a, hC' _ hs.from_master.1⟩, fun j hj => ?_⟩
    by_cases hjj : j ∈ e.joined
    · rw [hbj j hjj]; exact .inl (hC' _ hs.from_master.1)
    · exact .inr (hC' _ (hL j hj hjj))
  · rintro j hj
    have hjj : j ∉ e.joined := by
      rcases hj with rfl | hj
      · exact hs.from_master.2
      · exact hj.2
    rw [hbn j hjj]
    exact (hC j (hL j (hj.imp id (·.1)) hjj)).2
  · intro p hp h1
    exact absurd (h.fresh p hp) (Nat.not_lt.2 h1)

/-- The stores move on without anything new, flights vanish only when they have taken effect. -/
theorem TReign.move {rep : Bool} {k : Bytes} {since : Nat} {e : Era} {base : Nat → Nat} {g g' : Group} {hist : KState → Prop}
    (h : TReign rep k since e base g hist) (hs : g'.slaves = g.slaves)
    (hup : ∀ i, Rise (kstate (g.store i) k) (kstate (g'.store i) k))
    (hn : ∀ i, i = e.master ∨ i ∈ e.slaves → kstate (g'.store i) k ≠ .nothing →
      hist (kstate (g'.store i) k) ∨ (kstate (g'.store i) k).rank < base i)
    (hf : ∀ f ∈ g'.flying, f ∈ g.flying)
    (hf' : ∀ f ∈ g.flying, f.copy.entry.key = k → f.dest ∈ e.slaves →
      f ∈ g'.flying ∨ f.copy.mark.rank ≤ (kstate (g'.store f.dest) k).rank)
    (hd : ∀ d ∈ g'.dumps, d.2.key = k → d.1 = e.master ∨ d.1 ∈ e.slaves →
      hist (.record d.2.item) ∨ (KState.record d.2.item).rank < base d.1)
    (ho : g'.open_ = g.open_) (hx : g'.next = g.next) (ha : g'.acked = g.acked) : TReign rep k since e base g' hist := by
  refine ⟨h.past.move hup hn (fun f hf1 _ => hf f hf1) hd (by rw [ho, hx]; exact h.past.fresh)
    (fun p hp _ => by rw [← ha]; exact hp), fun j hj => Nat.le_trans (h.full j hj) (hup j).le, by rw [hs]; exact h.master,
    by rw [hs]; exact h.others, fun x hx => Nat.le_trans (h.top x hx) (hup _).le, ?_, by rw [hx]; exact h.since⟩
  rw [ho]
  intro p hp h0 h1 h2
  obtain ⟨a, b⟩ := h.opens p hp h0 h1 h2
  refine ⟨a, fun j hj => ?_⟩
  rcases b j hj with ⟨f, f0, f1, f2, f3, f4⟩ | hv
  · rcases hf' f f0 f3 (by rw [f2]; exact hj) with g1 | g1
    · exact .inl ⟨f, g1, f1, f2, f3, f4⟩
    · right
      rw [← f4, ← f2]; exact g1
  · exact .inr (Nat.le_trans hv (hup j).le)

theorem TReign.step {rep : Bool} {k : Bytes} {since : Nat} {e : Era} {base : Nat → Nat} {n : Nat} {g : Group}
    {hist : KState → Prop} (h : TReign rep k since e base g hist) (hg : TInv k n g) (hn : n + 1 < 2 ^ 64) {ev : GEv}
    (hf : ev.plain k g) (hr : ∀ i, Remembered (g.store i) k → Remembered ((gStep rep g ev).store i) k)
    (hs : ev.steadyIn k since e g) : ∃ hist', TReign rep k since e base (gStep rep g ev) hist' := by
  obtain ⟨-, hup⟩ := hg.step hn rep hf hr
  cases ev with
  | write i env path r refused =>
    by_cases hi : i = e.master
    · obtain ⟨f1, f2, f3⟩ := hf
      subst hi
      have hri : Remembered (g.store e.master) k → Remembered (atMaster (g.store e.master) env path r).1 k := by
        have := hr e.master
        simp only [gStep, h.master, setStore_self] at this
        exact this
      obtain ⟨w1, w2, -, w3⟩ := fit_write (hg.nodes e.master).1 f1 f2 f3 hri (hg.nodes e.master).2 hn
      by_cases hkey : r.entry.key = k
      swap
      · -- another key
        refine ⟨hist, ?_⟩
        have hp := h.past.step hg hn (ev := .write e.master env path r refused) ⟨f1, f2, f3⟩ hr hkey
        refine ⟨hp, fun j hj => Nat.le_trans (h.full j hj) (hup j).le, by simp only [gStep, h.master]; exact h.master,
          by simp only [gStep, h.master]; exact h.others, fun x hx => Nat.le_trans (h.top x hx) (hup _).le, ?_, ?_⟩
        · intro p hp h0 h1 h2
          simp only [gStep, h.master] at hp
          rcases List.mem_append.1 hp with hp | hp
          · obtain ⟨a, b⟩ := h.opens p hp h0 h1 h2
            refine ⟨a, fun j hj => ?_⟩
            rcases b j hj with ⟨f, f0, f1⟩ | hv
            · refine .inl ⟨f, ?_, f1⟩
              simp only [gStep, h.master]
              exact List.mem_append_left _ f0
            · exact .inr (Nat.le_trans hv (hup j).le)
          · rw [List.mem_singleton] at hp
            subst hp
            exact absurd h1 hkey
        · simp only [gStep, h.master]
          exact Nat.le_succ_of_le h.since
      have hcode : ∀ c, (atMaster (g.store e.master) env path r).2 = some c → c.entry.key = r.entry.key := fun c hc =>
        (master_copy (hg.nodes e.master).1.ok f1.2.2.2 hc).1.key
      have href : refused = [] := hs hkey
      subst href
      have hst0 : (gStep rep g (.write e.master env path r [])).store =
          (g.setStore e.master (atMaster (g.store e.master) env path r).1).store := by
        simp only [gStep, h.master]
      have hst : ∀ i, i ≠ e.master → (gStep rep g (.write e.master env path r [])).store i = g.store i := by
        intro i hi
        rw [hst0]; simp [Group.setStore, hi]
      have hst00 : (gStep rep g (.write e.master env path r [])).store e.master =
          (atMaster (g.store e.master) env path r).1 := by
        rw [hst0]; simp [Group.setStore]
      have hfl : (gStep rep g (.write e.master env path r [])).flying =
          g.flying ++ (atMaster (g.store e.master) env path r).2.toList.flatMap fun c =>
            e.slaves.map fun j => ⟨g.next, j, c⟩ := by
        simp only [gStep, h.master]
        simp
      have hop : (gStep rep g (.write e.master env path r [])).open_ =
          g.open_ ++ [(g.next, r, (Flare.step (g.store e.master) env r.call).2)] := by
        simp only [gStep, h.master]
      have hac : (gStep rep g (.write e.master env path r [])).acked = g.acked := by
        simp only [gStep, h.master]; rfl
      have hsl : (gStep rep g (.write e.master env path r [])).slaves = g.slaves := by
        simp only [gStep, h.master]; rfl
      have hdu : (gStep rep g (.write e.master env path r [])).dumps = g.dumps := by
        simp only [gStep, h.master]; rfl
      have hnx : (gStep rep g (.write e.master env path r [])).next = g.next + 1 := by
        simp only [gStep, h.master]
      clear hr
      generalize gStep rep g (.write e.master env path r []) = g' at *
      have mono : ∀ {j : Nat} {v : Nat}, v ≤ (kstate (g.store j) k).rank →
          v ≤ (kstate (g'.store j) k).rank := fun {j v} hv => Nat.le_trans hv (hup j).le
      have hfly : ∀ f ∈ g.flying, f ∈ g'.flying := fun f hf => by rw [hfl]; exact List.mem_append_left _ hf
      have hfresh : ∀ p ∈ g'.open_, p.1 < g'.next := by
        rw [hop, hnx]
        intro p hp
        rcases List.mem_append.1 hp with hp | hp
        · exact Nat.lt_succ_of_lt (h.past.fresh p hp)
        · rw [List.mem_singleton] at hp
          subst hp
          exact Nat.lt_succ_self _
      rcases w3 with ⟨e', e1⟩ | ⟨c, e0, e1, e2, e3⟩
      · -- nothing new about the key
        refine ⟨hist, h.past.move hup ?_ ?_ (by rw [hdu]; exact h.past.dumps) hfresh (fun p hp _ => by rw [← hac]; exact hp),
          fun j hj => mono (h.full j hj), by rw [hsl]; exact h.master, by rw [hsl]; exact h.others,
          fun x hx => mono (h.top x hx), ?_, by rw [hnx]; exact Nat.le_succ_of_le h.since⟩
        · intro i hi
          by_cases him : i = e.master
          · subst him; rw [hst00, e']; exact h.past.nodes _ hi
          · rw [hst i him]; exact h.past.nodes i hi
        · intro f hf hk
          rw [hfl] at hf
          rcases List.mem_append.1 hf with hf | hf
          · exact hf
          · simp only [List.mem_flatMap, Option.mem_toList, List.mem_map] at hf
            obtain ⟨c, hc, j, -, rfl⟩ := hf
            exact absurd hk (e1 c hc)
        · rw [hop]
          intro p hp h0 h1 h2
          rcases List.mem_append.1 hp with hp | hp
          · obtain ⟨a, b⟩ := h.opens p hp h0 h1 h2
            refine ⟨a, fun j hj => ?_⟩
            rcases b j hj with ⟨f, f1, f2⟩ | hv
            · exact .inl ⟨f, hfly f f1, f2⟩
            · exact .inr (mono hv)
          · rw [List.mem_singleton] at hp
            subst hp
            obtain ⟨c, hc⟩ := done_copies (path := path) h2
            exact absurd ((hcode c hc).trans h1) (e1 c hc)
      · -- something new
        have hmark : c.mark = (Flare.step (g.store e.master) env r.call).2.mark :=
          mark_out e0 (((w2 c e0).own e1).1.imp (·.1) id)
        have hnew : ∀ x, hist x → x.rank < c.mark.rank := fun x hx => Nat.lt_of_le_of_lt (h.top x hx) e3
        have hfl' : g'.flying = g.flying ++ e.slaves.map fun j => ⟨g.next, j, c⟩ := by
          rw [hfl, e0]; simp
        refine ⟨fun x => hist x ∨ x = c.mark, ⟨?_, ?_, ?_, ?_, ?_, ?_, hfresh⟩,
          fun j hj => mono (h.full j hj), by rw [hsl]; exact h.master, by rw [hsl]; exact h.others, ?_, ?_,
          by rw [hnx]; exact Nat.le_succ_of_le h.since⟩
        · intro x y hx hy hv
          rcases hx with hx | rfl <;> rcases hy with hy | rfl
          · exact h.past.unique x y hx hy hv
          · exact absurd hv (Nat.ne_of_lt (hnew x hx))
          · exact absurd hv.symm (Nat.ne_of_lt (hnew y hy))
          · rfl
        · intro x hx
          rcases hx with hx | rfl
          · exact h.past.pos x hx
          · omega
        · intro i hi hx
          by_cases him : i = e.master
          · subst him; rw [hst00, e2]; exact .inl (.inr rfl)
          · rw [hst i him] at hx ⊢; exact (h.past.nodes i hi hx).imp .inl id
        · intro f hf hk hd
          rw [hfl'] at hf
          rcases List.mem_append.1 hf with hf | hf
          · exact (h.past.copies f hf hk hd).imp .inl id
          · obtain ⟨j, -, rfl⟩ := List.mem_map.1 hf
            exact .inl (.inr rfl)
        · rw [hdu]
          exact fun d hd hk hL => (h.past.dumps d hd hk hL).imp .inl id
        · rw [hac]
          intro p hp h1 h2 h3
          obtain ⟨a, b⟩ := h.past.acked p hp h1 h2 h3
          exact ⟨.inl a, fun j hj => (b j hj).imp id mono⟩
        · intro x hx
          rcases hx with hx | rfl
          · exact mono (h.top x hx)
          · rw [hst00, e2]; exact Nat.le_refl _
        · rw [hop]
          intro p hp h0 h1 h2
          rcases List.mem_append.1 hp with hp | hp
          · obtain ⟨a, b⟩ := h.opens p hp h0 h1 h2
            refine ⟨.inl a, fun j hj => ?_⟩
            rcases b j hj with ⟨f, f1, f2⟩ | hv
            · exact .inl ⟨f, hfly f f1, f2⟩
            · exact .inr (mono hv)
          · rw [List.mem_singleton] at hp
            subst hp
            refine ⟨.inr hmark.symm, fun j hj => .inl ⟨⟨g.next, j, c⟩, ?_, rfl, rfl, e1, hmark⟩⟩
            rw [hfl']
            exact List.mem_append_right _ (List.mem_map.2 ⟨j, hj, rfl⟩)
    · refine ⟨hist, ?_⟩
      simp only [gStep, h.others i hi]
      exact h
  | arrive f env =>
    refine ⟨hist, ?_⟩
    have hp := (h.past.step hg hn (ev := .arrive f env) hf hr trivial).nodes
    simp only [gStep] at hup hp hr ⊢
    cases hx : g.flying[f]? with
    | none => exact h
    | some x =>
      simp only [hx] at hup hp hr ⊢
      obtain ⟨p1, p2, p3⟩ := hf
      have hri := hr x.dest
      simp only [setStore_self] at hri
      have hxm := List.mem_of_getElem? hx
      refine h.move rfl hup hp (fun y hy => List.mem_of_mem_eraseIdx hy) ?_ h.past.dumps rfl rfl rfl
      intro y hy hk hd
      by_cases hyx : y = x
      · right
        subst hyx
        simp only [Group.setStore, if_pos]
        exact (arrive_hist' (hg.nodes y.dest).1 p1 p2 (hg.copies y hxm).1 hri (p3 y hx)
          (hist := fun z => hist z ∨ z.rank < base y.dest) (h.past.nodes y.dest (.inr hd))
          (fun hk => h.past.copies y hxm hk (.inr hd))).2 hk
      · left
        obtain ⟨m, hm⟩ := List.getElem?_of_mem hy
        refine List.mem_eraseIdx_iff_getElem?.2 ⟨m, ?_, hm⟩
        rintro rfl
        rw [hx] at hm
        exact hyx (Option.some.inj hm).symm
  | again f env =>
    refine ⟨hist, ?_⟩
    have hp := (h.past.step hg hn (ev := .again f env) hf hr trivial).nodes
    simp only [gStep] at hup hp ⊢
    cases hx : g.flying[f]? with
    | none => exact h
    | some x =>
      simp only [hx] at hup hp ⊢
      exact h.move rfl hup hp (fun y hy => hy) (fun y hy _ _ => .inl hy) h.past.dumps rfl rfl rfl
  | lose f =>
    refine ⟨hist, h.move rfl hup h.past.nodes (fun y hy => List.mem_of_mem_eraseIdx hy) ?_ h.past.dumps rfl rfl rfl⟩
    intro y hy hk hd
    left
    obtain ⟨m, hm⟩ := List.getElem?_of_mem hy
    refine List.mem_eraseIdx_iff_getElem?.2 ⟨m, ?_, hm⟩
    rintro rfl
    exact hs y hm hd hk
  | answer a =>
    refine ⟨hist, ?_⟩
    simp only [gStep]
    cases hx : g.open_[a]? with
    | none => exact h
    | some p =>
      obtain ⟨id, r, o⟩ := p
      simp only
      split
      · exact h
      next hb =>
        refine ⟨⟨h.past.unique, h.past.pos, h.past.nodes, h.past.copies, h.past.dumps, ?_,
          fun p hp => h.past.fresh p (List.mem_of_mem_eraseIdx hp)⟩, h.full, h.master, h.others, h.top,
          fun p hp => h.opens p (List.mem_of_mem_eraseIdx hp), h.since⟩
        intro p hp h1 h2 h3
        simp only at hp
        split at hp
        · exact h.past.acked p hp h1 h2 h3
        · rcases List.mem_append.1 hp with hp | hp
          · exact h.past.acked p hp h1 h2 h3
          · rw [List.mem_singleton] at hp
            subst hp
            obtain ⟨a, b⟩ := h.opens _ (List.mem_of_getElem? hx) (hs _ hx h1) h1 h2
            refine ⟨a, ?_⟩
            rintro j (rfl | hj)
            · exact .inr (h.top _ a)
            right
            rcases b j hj with ⟨f, f1, f2, -⟩ | hv
            · exfalso
              apply hb
              simp only at h3
              rw [h3, Bool.true_and, List.any_eq_true]
              exact ⟨f, f1, by simpa using f2⟩
            · exact hv
  | read i env e' =>
    refine ⟨hist, h.move rfl hup ?_ (fun y hy => hy) (fun y hy _ _ => .inl hy) h.past.dumps rfl rfl rfl⟩
    exact (h.past.step hg hn (ev := .read i env e') hf hr trivial).nodes
  | role i l => exact hs.elim
  | dump i j env k' =>
    have hri : Remembered (g.store i) k → Remembered ((MEvent.dump env k').apply (g.store i)).1 k := by
      have := hr i
      simp only [gStep, setStore_self] at this
      exact this
    obtain ⟨-, r2, r3⟩ := fit_dumps (hg.nodes i).1 env k' hri
    refine ⟨hist, h.move rfl hup ?_ (fun y hy => hy) (fun y hy _ _ => .inl hy) ?_ rfl rfl rfl⟩
    · intro j hj
      simp only [gStep, Group.setStore]
      split
      · subst_vars
        rw [r2]; exact h.past.nodes _ hj
      · exact h.past.nodes j hj
    · intro d hd hk hL
      simp only [gStep] at hd
      rcases List.mem_append.1 hd with hd | hd
      · exact h.past.dumps d hd hk hL
      · split at hd
        next e' he =>
          rw [List.mem_singleton] at hd
          subst hd
          obtain ⟨-, d2, d3⟩ := r3 e' he
          rcases hs (d2.symm.trans hk) with rfl | ⟨n1, n2⟩
          · left
            have hrec := d3 hk
            rcases h.past.nodes e.master (.inl rfl) (by rw [hrec]; simp) with h1 | h1
            · rw [hrec] at h1; exact h1
            · exact absurd (Nat.lt_of_lt_of_le h1 (h.full e.master (.inl rfl))) (Nat.lt_irrefl _)
          · rcases hL with hL | hL
            · exact absurd hL n1
            · exact absurd hL n2
        · cases hd
  | put d env =>
    refine ⟨hist, ?_⟩
    have hp := h.past.step hg hn (ev := .put d env) hf hr trivial
    have hp1 := hp.nodes
    have hp2 := hp.dumps
    simp only [gStep] at hup hp1 hp2 ⊢
    cases hx : g.dumps[d]? with
    | none => exact h
    | some x =>
      obtain ⟨j, e'⟩ := x
      simp only [hx] at hup hp1 hp2 ⊢
      exact h.move rfl hup hp1 (fun y hy => hy) (fun y hy _ _ => .inl hy) hp2 rfl rfl rfl
  | drop d =>
    exact ⟨hist, h.move rfl hup h.past.nodes (fun y hy => hy) (fun y hy _ _ => .inl hy)
      (fun d hd hk => h.past.dumps d (List.mem_of_mem_eraseIdx hd) hk) rfl rfl rfl⟩

theorem TReign.run {rep : Bool} {k : Bytes} {since : Nat} {e : Era} {base : Nat → Nat} : ∀ {evs : List GEv} {n : Nat}
    {g : Group} {hist : KState → Prop}, TReign rep k since e base g hist → TInv k n g → n + evs.length < 2 ^ 64 →
    Plainly rep k g evs → SteadyIn rep k since e g evs → ∃ hist', TReign rep k since e base (gRun rep g evs) hist'
  | [], _, _, hist, h, _, _, _, _ => ⟨hist, h⟩
  | ev :: evs, n, g, _, h, hg, hn, hf, hs => by
    simp only [List.length_cons] at hn
    obtain ⟨hist', h'⟩ := h.step hg (by omega) hf.1 hf.2.1 hs.1
    exact h'.run (evs := evs) (hg.step (by omega) rep hf.1 hf.2.1).1 (by omega) hf.2.2 hs.2

/-- A record of a dump that was read from the master and has arrived. -/
theorem refilled_full {rep : Bool} {k : Bytes} {e : Era} {n : Nat} {g : Group} (hg : TInv k n g)
    (hn : n + e.evs.length < 2 ^ 64) (hf : Plainly rep k g e.evs) {j : Nat} (hr : Refilled rep k e g j) :
    (kstate (g.store e.master) k).rank ≤ (kstate ((gRun rep g e.evs).store j) k).rank := by
  obtain ⟨a, env, b1, d, env', b2, r, x, he, hl, hd, hk, hit⟩ := hr
  rw [he] at hf hn ⊢
  rw [List.length_append] at hn
  obtain ⟨hf1, hf2⟩ := plainly_append.1 hf
  obtain ⟨hg1, hup1⟩ := hg.run (evs := a) (by omega) hf1
  have hb := kstate_of_lookup (hg1.nodes e.master).1.ok hl
  have hle : (kstate (g.store e.master) k).rank ≤ 2 * r.version.toNat := by
    have := (hup1 e.master).le
    rw [hb] at this
    rw [show r.version = x.version from congrArg Item.version hit]
    exact this
  refine Nat.le_trans hle ?_
  have hcat : a ++ GEv.dump e.master j env k :: (b1 ++ GEv.put d env' :: b2) =
      (a ++ GEv.dump e.master j env k :: b1) ++ (GEv.put d env' :: b2) := by simp
  have hlen := congrArg List.length hcat
  simp only [List.length_append, List.length_cons] at hlen hn
  rw [hcat] at hf ⊢
  obtain ⟨hf3, hf4⟩ := plainly_append.1 hf
  obtain ⟨hg2, -⟩ := hg.run (evs := a ++ GEv.dump e.master j env k :: b1)
    (by simp only [List.length_append, List.length_cons]; omega) hf3
  rw [gRun_append]
  generalize hgen : gRun rep g (a ++ GEv.dump e.master j env k :: b1) = g2 at *
  show _ ≤ (kstate ((gRun rep (gStep rep g2 (.put d env')) b2).store j) k).rank
  simp only [List.length_append, List.length_cons] at hg2
  obtain ⟨hg3, -⟩ := hg2.step (by omega) rep hf4.1 hf4.2.1
  obtain ⟨-, hup3⟩ := hg3.run (evs := b2) (by omega) hf4.2.2
  refine Nat.le_trans ?_ (hup3 j).le
  have hri := hf4.2.1 j
  simp only [gStep, hd, setStore_self] at hri
  simp only [gStep, hd, setStore_self]
  obtain ⟨-, -, p3⟩ := fit_put (hg2.nodes j).1 hf4.1.1 hf4.1.2 (hg2.dumps _ (List.mem_of_getElem? hd)).1 hri
  rcases p3 hk with ⟨p, -⟩ | ⟨p, hle⟩
  · rw [p]; exact Nat.le_refl _
  · rw [p]; exact hle

/-- Era after era: what is known of the nodes of the last one. -/
theorem ruled_run {rep : Bool} {k : Bytes} : ∀ (es : List Era) (n : Nat) (g : Group) (C L : Nat → Prop)
    (base : Nat → Nat) (hist : KState → Prop), TPast rep k L base g hist →
    (∀ i, C i → L i ∧ base i ≤ (kstate (g.store i) k).rank) → TInv k n g →
    n + (es.flatMap Era.events).length < 2 ^ 64 → Plainly rep k g (es.flatMap Era.events) → Ruled rep k C g es →
    ∃ L' base' hist', TPast rep k L' base' (gRun rep g (es.flatMap Era.events)) hist' ∧
      ∀ i, (match es.getLast? with | none => C i | some e => Complete rep k e (lastStart rep g es) i) →
        L' i ∧ base' i ≤ (kstate ((gRun rep g (es.flatMap Era.events)).store i) k).rank
  | [], n, g, C, L, base, hist, h, hC, _, _, _, _ => ⟨L, base, hist, h, hC⟩
  | e :: es, n, g, C, L, base, hist, h, hC, hg, hn, hf, hr => by
    obtain ⟨r1, r2, r3, r4⟩ := hr
    simp only [List.flatMap_cons, List.length_append, Era.events] at hn
    simp only [List.flatMap_cons] at hf ⊢
    obtain ⟨hf1, hf2⟩ := plainly_append.1 hf
    simp only [Era.events] at hf1
    obtain ⟨hf0, hf1⟩ := plainly_append.1 hf1
    obtain ⟨hg1, hup1⟩ := hg.run (evs := e.gap) (by omega) hf0
    have h1 := h.run hg (by omega) hf0 r1
    obtain ⟨hist1, h2⟩ := h1.succeed hg1 (fun i hi => ⟨(hC i hi).1, Nat.le_trans (hC i hi).2 (hup1 i).le⟩) r2
    obtain ⟨hg2, -⟩ := hg1.run (evs := e.evs) (by omega) hf1
    obtain ⟨hist2, h3⟩ := h2.run hg1 (by omega) hf1 r3
    have hW : ∀ i, Complete rep k e (gRun rep g e.gap) i → (i = e.master ∨ i ∈ e.slaves) ∧
        e.mark k base (gRun rep g e.gap) i ≤ (kstate ((gRun rep (gRun rep g e.gap) e.evs).store i) k).rank := by
      intro i hi
      refine ⟨hi.imp id (·.1), ?_⟩
      by_cases hj : i = e.master ∨ i ∈ e.slaves ∧ i ∉ e.joined
      · exact h3.full i hj
      · have hjj : i ∈ e.joined := by
          rcases hi with hi | ⟨hi, -⟩
          · exact absurd (.inl hi) hj
          · exact Classical.byContradiction fun h => hj (.inr ⟨hi, h⟩)
        rw [show e.mark k base (gRun rep g e.gap) i = _ from if_pos hjj]
        rcases hi with hi | ⟨hi, hi' | hi' | hi'⟩
        · exact absurd (.inl hi) hj
        · exact absurd hjj hi'
        · exact refilled_full hg1 (by omega) hf1 hi'
        · unfold CaughtUp at hi'
          rw [trace_rank, trace_rank, traceOf_state (hg1.nodes _).1.ok, traceOf_state (hg2.nodes _).1.ok] at hi'
          exact hi'
    rw [← gRun_append] at h3 hg2 hW
    rw [gRun_append]
    obtain ⟨L', base', hist3, h4, h5⟩ := ruled_run es _ _ _ _ _ hist2 h3.past hW hg2 (by omega) hf2 r4
    refine ⟨L', base', hist3, h4, ?_⟩
    cases es with
    | nil =>
      simp only [List.getLast?_singleton, lastStart]
      exact h5
    | cons e' es =>
      rw [List.getLast?_cons_cons]
      rw [List.getLast?_eq_some_getLast (List.cons_ne_nil e' es)] at h5 ⊢
      exact h5

end Flare
