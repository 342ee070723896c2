import Verif.Spec.Reigns
import Verif.Lemmas.FailoverGroup

namespace Flare

theorem bare_recordVersion {k : Bytes} {s : Store} (h : HostOk k s) : recordVersion s k = (kstate s k).version := by
  unfold recordVersion
  rw [kstate_lookup h.ok]
  rcases h.bare with hb | ⟨x, hb, hx, -⟩
  · rw [hb]; rfl
  · rw [hb]; simp [KState.visible, hx, KState.version]

/-- What is kept while the roles change: `L` are the nodes that are still there; below `base` a node may hold something that the
others have never heard of, and may lack what was answered. -/
structure Past (rep : Bool) (k : Bytes) (L : Nat → Prop) (base : Nat → UInt64) (g : Group) (hist : Item → Prop) : Prop where
  unique : ∀ x y, hist x → hist y → x.version = y.version → x = y
  pos : ∀ x, hist x → x.version ≠ 0
  nodes : ∀ i, L i → ∀ x, kstate (g.store i) k = .record x → hist x ∨ x.version < base i
  copies : ∀ f ∈ g.flying, f.copy.entry.key = k → L f.dest → hist f.copy.entry.item ∨ f.copy.entry.version < base f.dest
  dumps : ∀ d ∈ g.dumps, d.2.key = k → L d.1 → hist d.2.item ∨ d.2.version < base d.1
  acked : ∀ p ∈ g.acked, p.1.entry.key = k → p.2.r = some .stored → isSync p.1.entry.option rep = true →
    hist p.2.e.item ∧ ∀ j, L j → p.2.e.version ≤ base j ∨ p.2.e.version ≤ (kstate (g.store j) k).version
  fresh : ∀ p ∈ g.open_, p.1 < g.next

/-- What is kept while `m` is the master of the slaves `l`. -/
structure Reign (rep : Bool) (k : Bytes) (since : Nat) (e : Era) (base : Nat → UInt64) (g : Group) (hist : Item → Prop) :
    Prop where
  past : Past rep k (fun i => i = e.master ∨ i ∈ e.slaves) base g hist
  full : ∀ j, j = e.master ∨ j ∈ e.slaves ∧ j ∉ e.joined → base j ≤ (kstate (g.store j) k).version
  master : g.slaves e.master = some e.slaves
  others : ∀ i, i ≠ e.master → g.slaves i = none
  top : ∀ x, hist x → x.version ≤ (kstate (g.store e.master) k).version
  opens : ∀ p ∈ g.open_, since ≤ p.1 → p.2.1.entry.key = k → p.2.2.r = some .stored →
    hist p.2.2.e.item ∧ ∀ j ∈ e.slaves,
      (∃ f ∈ g.flying, f.id = p.1 ∧ f.dest = j ∧ f.copy.entry.key = k ∧ f.copy.entry.item = p.2.2.e.item) ∨
        p.2.2.e.version ≤ (kstate (g.store j) k).version
  since : since ≤ g.next

/-- The stores move on without a new item. -/
theorem Past.move {rep : Bool} {k : Bytes} {L : Nat → Prop} {base : Nat → UInt64} {g g' : Group} {hist : Item → Prop}
    (h : Past rep k L base g hist)
    (hup : ∀ i, Up (kstate (g.store i) k) (kstate (g'.store i) k))
    (hn : ∀ i, L i → ∀ x, kstate (g'.store i) k = .record x → hist x ∨ x.version < base i)
    (hf : ∀ f ∈ g'.flying, f.copy.entry.key = k → f ∈ g.flying)
    (hd : ∀ d ∈ g'.dumps, d.2.key = k → L d.1 → hist d.2.item ∨ d.2.version < base d.1)
    (ho : ∀ p ∈ g'.open_, p.1 < g'.next)
    (ha : ∀ p ∈ g'.acked, p.1.entry.key = k → p ∈ g.acked) : Past rep k L base g' hist :=
  ⟨h.unique, h.pos, hn, fun f h1 h2 => h.copies f (hf f h1 h2) h2, hd, fun p hp h1 h2 h3 =>
    have ⟨a, b⟩ := h.acked p (ha p hp h1) h1 h2 h3
    ⟨a, fun j hj => (b j hj).imp id fun b => UInt64.le_trans b (hup j).le⟩, ho⟩

theorem Past.step {rep : Bool} {k : Bytes} {L : Nat → Prop} {base : Nat → UInt64} {n : Nat} {g : Group} {hist : Item → Prop}
    (h : Past rep k L base g hist) (hg : GInv k n g) (hn : n + 1 < 2 ^ 64) {ev : GEv} (hf : ev.fine k g)
    (hs : ev.idleFor k g) : Past rep k L base (gStep rep g ev) hist := by
  obtain ⟨-, hup⟩ := hg.step hn rep hf
  cases ev with
  | write i env path r refused =>
    cases hl : g.slaves i with
    | none =>
      have : gStep rep g (.write i env path r refused) = g := by simp only [gStep, hl]
      rw [this]; exact h
    | some l =>
      obtain ⟨f1, f2, f3⟩ := hf
      obtain ⟨v1, v2, v3⟩ := version_succ (hg.nodes i).2 hn
      obtain ⟨w1, w2, w3⟩ := node_write (hg.nodes i).1 f1 f2 f3 v1
      have hcode : ∀ c, (atMaster (g.store i) env path r).2 = some c → c.entry.key ≠ k := fun c hc => by
        rw [(master_copy (hg.nodes i).1.ok f1.2.2.2 hc).1.key]; exact hs
      have hks : kstate (atMaster (g.store i) env path r).1 k = kstate (g.store i) k := by
        rcases w3 with ⟨e, -⟩ | ⟨c, e0, e1, -⟩
        · exact e
        · exact absurd e1 (hcode c e0)
      refine h.move hup ?_ ?_ (by simp only [gStep, hl]; exact h.dumps) ?_ ?_
      · intro j hj x hx
        simp only [gStep, hl, Group.setStore] at hx
        split at hx
        · subst_vars
          rw [hks] at hx; exact h.nodes _ hj x hx
        · exact h.nodes j hj x hx
      · intro f hf hk
        simp only [gStep, hl] at hf
        rcases List.mem_append.1 hf with hf | hf
        · exact hf
        · simp only [List.mem_flatMap, Option.mem_toList, List.mem_map] at hf
          obtain ⟨c, hc, j, -, rfl⟩ := hf
          exact absurd hk (hcode c hc)
      · intro p hp
        simp only [gStep, hl] at hp ⊢
        rcases List.mem_append.1 hp with hp | hp
        · exact Nat.lt_succ_of_lt (h.fresh p hp)
        · rw [List.mem_singleton] at hp
          subst hp
          exact Nat.lt_succ_self _
      · intro p hp _
        simp only [gStep, hl] at hp
        exact hp
  | arrive f env =>
    simp only [gStep] at hup ⊢
    cases hx : g.flying[f]? with
    | none => exact h
    | some x =>
      simp only [hx] at hup ⊢
      have hxm := List.mem_of_getElem? hx
      refine h.move hup ?_ (fun y hy _ => List.mem_of_mem_eraseIdx hy) h.dumps h.fresh (fun p hp _ => hp)
      intro i hi y hy
      simp only [Group.setStore] at hy
      split at hy
      · subst_vars
        exact (arrive_hist (hg.nodes _).1 hf (hg.copies x hxm).1 (hist := fun y => hist y ∨ y.version < base x.dest)
          (h.nodes _ hi) (fun hk => h.copies x hxm hk hi)).1 y hy
      · exact h.nodes i hi y hy
  | again f env =>
    simp only [gStep] at hup ⊢
    cases hx : g.flying[f]? with
    | none => exact h
    | some x =>
      simp only [hx] at hup ⊢
      have hxm := List.mem_of_getElem? hx
      refine h.move hup ?_ (fun y hy _ => hy) h.dumps h.fresh (fun p hp _ => hp)
      intro i hi y hy
      simp only [Group.setStore] at hy
      split at hy
      · subst_vars
        exact (arrive_hist (hg.nodes _).1 hf (hg.copies x hxm).1 (hist := fun y => hist y ∨ y.version < base x.dest)
          (h.nodes _ hi) (fun hk => h.copies x hxm hk hi)).1 y hy
      · exact h.nodes i hi y hy
  | lose f =>
    exact h.move hup h.nodes (fun y hy _ => List.mem_of_mem_eraseIdx hy) h.dumps h.fresh (fun p hp _ => hp)
  | answer a =>
    simp only [gStep] at hup ⊢
    cases hx : g.open_[a]? with
    | none => exact h
    | some p =>
      obtain ⟨id, r, o⟩ := p
      have hk : r.entry.key ≠ k := hs _ hx
      simp only [hx] at hup ⊢
      split
      · exact h
      · refine h.move (fun _ => .refl _) h.nodes (fun y hy _ => hy) h.dumps
          (fun p hp => h.fresh p (List.mem_of_mem_eraseIdx hp)) ?_
        intro p hp hpk
        simp only at hp
        split at hp
        · exact hp
        · rcases List.mem_append.1 hp with hp | hp
          · exact hp
          · rw [List.mem_singleton] at hp
            subst hp
            exact absurd hpk hk
  | read i env e =>
    refine h.move hup ?_ (fun y hy _ => hy) h.dumps h.fresh (fun p hp _ => hp)
    obtain ⟨-, r2⟩ := bare_get (hg.nodes i).1 env e
    intro j hj y hy
    simp only [gStep, Group.setStore] at hy
    split at hy
    · subst_vars
      rw [r2] at hy; exact h.nodes _ hj y hy
    · exact h.nodes j hj y hy
  | role i l => exact ⟨h.unique, h.pos, h.nodes, h.copies, h.dumps, h.acked, h.fresh⟩
  | dump i j env k' =>
    obtain ⟨-, r2, r3⟩ := node_dumps (hg.nodes i).1 env k'
    refine h.move hup ?_ (fun y hy _ => hy) ?_ h.fresh (fun p hp _ => hp)
    · intro j hj y hy
      simp only [gStep, Group.setStore] at hy
      split at hy
      · subst_vars
        rw [r2] at hy; exact h.nodes _ hj y hy
      · exact h.nodes j hj y hy
    · intro d hd hk hL
      simp only [gStep] at hd
      rcases List.mem_append.1 hd with hd | hd
      · exact h.dumps d hd hk hL
      · split at hd
        next e he =>
          rw [List.mem_singleton] at hd
          subst hd
          exact absurd ((r3 e he).2.1.symm.trans hk) hs
        · cases hd
  | put d env =>
    simp only [gStep] at hup ⊢
    cases hx : g.dumps[d]? with
    | none => exact h
    | some x =>
      obtain ⟨j, e⟩ := x
      simp only [hx] at hup ⊢
      have hxm := List.mem_of_getElem? hx
      refine h.move hup ?_ (fun y hy _ => hy) (fun d hd hk => h.dumps d (List.mem_of_mem_eraseIdx hd) hk) h.fresh
        (fun p hp _ => hp)
      intro i hi y hy
      simp only [Group.setStore] at hy
      split at hy
      · subst_vars
        exact (put_hist (hg.nodes i).1 hf (hg.dumps _ hxm).1 (hist := fun y => hist y ∨ y.version < base i)
          (h.nodes _ hi) (fun hk => h.dumps _ hxm hk hi)).1 y hy
      · exact h.nodes i hi y hy
  | drop d =>
    exact h.move hup h.nodes (fun y hy _ => hy) (fun d hd hk => h.dumps d (List.mem_of_mem_eraseIdx hd) hk) h.fresh
      (fun p hp _ => hp)

theorem Past.run {rep : Bool} {k : Bytes} {L : Nat → Prop} {base : Nat → UInt64} {hist : Item → Prop} : ∀ {evs : List GEv} {n : Nat} {g : Group},
    Past rep k L base g hist → GInv k n g → n + evs.length < 2 ^ 64 → Fine rep k g evs → IdleFor rep k g evs →
    Past rep k L base (gRun rep g evs) hist
  | [], _, _, h, _, _, _, _ => h
  | ev :: evs, n, g, h, hg, hn, hf, hs => by
    simp only [List.length_cons] at hn
    exact (h.step hg (by omega) hf.1 hs.1).run (evs := evs) (hg.step (by omega) rep hf.1).1 (by omega) hf.2 hs.2

/-- Without writes of the key and copies on their way, nothing happens to it. -/
theorem idle_step {rep : Bool} {k : Bytes} {n : Nat} {g : Group} (hg : GInv k n g) (hn : n + 1 < 2 ^ 64)
    (hq : (∀ f ∈ g.flying, f.copy.entry.key ≠ k) ∧ ∀ d ∈ g.dumps, d.2.key ≠ k) {ev : GEv} (hf : ev.fine k g)
    (hs : ev.idleFor k g) :
    ((∀ f ∈ (gStep rep g ev).flying, f.copy.entry.key ≠ k) ∧ ∀ d ∈ (gStep rep g ev).dumps, d.2.key ≠ k) ∧
      ∀ j, kstate ((gStep rep g ev).store j) k = kstate (g.store j) k := by
  cases ev with
  | write i env path r refused =>
    cases hl : g.slaves i with
    | none =>
      have : gStep rep g (.write i env path r refused) = g := by simp only [gStep, hl]
      rw [this]; exact ⟨hq, fun _ => rfl⟩
    | some l =>
      obtain ⟨f1, f2, f3⟩ := hf
      obtain ⟨v1, v2, v3⟩ := version_succ (hg.nodes i).2 hn
      obtain ⟨w1, w2, w3⟩ := node_write (hg.nodes i).1 f1 f2 f3 v1
      have hcode : ∀ c, (atMaster (g.store i) env path r).2 = some c → c.entry.key ≠ k := fun c hc => by
        rw [(master_copy (hg.nodes i).1.ok f1.2.2.2 hc).1.key]; exact hs
      have hks : kstate (atMaster (g.store i) env path r).1 k = kstate (g.store i) k := by
        rcases w3 with ⟨e, -⟩ | ⟨c, e0, e1, -⟩
        · exact e
        · exact absurd e1 (hcode c e0)
      simp only [gStep, hl]
      refine ⟨⟨?_, hq.2⟩, ?_⟩
      · intro f hf
        rcases List.mem_append.1 hf with hf | hf
        · exact hq.1 f hf
        · simp only [List.mem_flatMap, Option.mem_toList, List.mem_map] at hf
          obtain ⟨c, hc, j, -, rfl⟩ := hf
          exact hcode c hc
      · intro j
        simp only [Group.setStore]
        split
        · subst_vars; exact hks
        · rfl
  | arrive f env =>
    simp only [gStep]
    cases hx : g.flying[f]? with
    | none => exact ⟨hq, fun _ => rfl⟩
    | some x =>
      have hxm := List.mem_of_getElem? hx
      refine ⟨⟨fun y hy => hq.1 y (List.mem_of_mem_eraseIdx hy), hq.2⟩, fun j => ?_⟩
      simp only [Group.setStore]
      split
      · subst_vars
        exact (node_arrive (hg.nodes x.dest).1 hf (hg.copies x hxm).1).2.1 (hq.1 x hxm)
      · rfl
  | again f env =>
    simp only [gStep]
    cases hx : g.flying[f]? with
    | none => exact ⟨hq, fun _ => rfl⟩
    | some x =>
      have hxm := List.mem_of_getElem? hx
      refine ⟨hq, fun j => ?_⟩
      simp only [Group.setStore]
      split
      · subst_vars
        exact (node_arrive (hg.nodes x.dest).1 hf (hg.copies x hxm).1).2.1 (hq.1 x hxm)
      · rfl
  | lose f => exact ⟨⟨fun y hy => hq.1 y (List.mem_of_mem_eraseIdx hy), hq.2⟩, fun _ => rfl⟩
  | answer a =>
    simp only [gStep]
    split
    · exact ⟨hq, fun _ => rfl⟩
    · split
      · exact ⟨hq, fun _ => rfl⟩
      · exact ⟨hq, fun _ => rfl⟩
  | read i env e =>
    refine ⟨hq, fun j => ?_⟩
    simp only [gStep, Group.setStore]
    split
    · subst_vars; exact (bare_get (hg.nodes _).1 env e).2
    · rfl
  | role i l => exact ⟨hq, fun _ => rfl⟩
  | dump i j env k' =>
    obtain ⟨-, r2, r3⟩ := node_dumps (hg.nodes i).1 env k'
    refine ⟨⟨hq.1, fun d hd => ?_⟩, fun j => ?_⟩
    · simp only [gStep] at hd
      rcases List.mem_append.1 hd with hd | hd
      · exact hq.2 d hd
      · split at hd
        next e he =>
          rw [List.mem_singleton] at hd
          subst hd
          rw [show e.key = k' from (r3 e he).2.1]; exact hs
        · cases hd
    · simp only [gStep, Group.setStore]
      split
      · subst_vars; exact r2
      · rfl
  | put d env =>
    simp only [gStep]
    cases hx : g.dumps[d]? with
    | none => exact ⟨hq, fun _ => rfl⟩
    | some x =>
      obtain ⟨i, e⟩ := x
      have hxm := List.mem_of_getElem? hx
      refine ⟨⟨hq.1, fun y hy => hq.2 y (List.mem_of_mem_eraseIdx hy)⟩, fun j => ?_⟩
      simp only [Group.setStore]
      split
      · subst_vars
        exact (node_put (hg.nodes _).1 hf (hg.dumps _ hxm).1).2.1 (hq.2 _ hxm)
      · rfl
  | drop d => exact ⟨⟨hq.1, fun y hy => hq.2 y (List.mem_of_mem_eraseIdx hy)⟩, fun _ => rfl⟩

theorem idle_kstate (rep : Bool) (k : Bytes) : ∀ (evs : List GEv) (n : Nat) (g : Group), GInv k n g →
    ((∀ f ∈ g.flying, f.copy.entry.key ≠ k) ∧ ∀ d ∈ g.dumps, d.2.key ≠ k) → n + evs.length < 2 ^ 64 → Fine rep k g evs → IdleFor rep k g evs →
    ∀ j, kstate ((gRun rep g evs).store j) k = kstate (g.store j) k
  | [], _, _, _, _, _, _, _ => fun _ => rfl
  | ev :: evs, n, g, hg, hq, hn, hf, hs => by
    intro j
    simp only [List.length_cons] at hn
    obtain ⟨h1, h2⟩ := idle_step (rep := rep) hg (by omega) hq hf.1 hs.1
    rw [← h2 j]
    exact idle_kstate rep k evs (n + 1) _ (hg.step (by omega) rep hf.1).1 h1 (by omega) hf.2 hs.2 j

/-- The bases of an era. -/
def Era.base (k : Bytes) (e : Era) (base : Nat → UInt64) (g : Group) (i : Nat) : UInt64 :=
  if i ∈ e.joined then (kstate (g.store e.master) k).version else base i

/-- A new reign begins. -/
theorem Past.succeed {rep : Bool} {k : Bytes} {L : Nat → Prop} {base : Nat → UInt64} {n : Nat} {g : Group}
    {hist : Item → Prop} (h : Past rep k L base g hist) (hg : GInv k n g) {C : Nat → Prop}
    (hC : ∀ i, C i → L i ∧ base i ≤ (kstate (g.store i) k).version) {e : Era} (hs : Succeeds k C g e) :
    ∃ hist', Reign rep k g.next e (e.base k base g) g hist' := by
  have hv : ∀ i, recordVersion (g.store i) k = (kstate (g.store i) k).version := fun i => bare_recordVersion (hg.nodes i).1
  have hL : ∀ i, i = e.master ∨ i ∈ e.slaves → i ∉ e.joined → C i := by
    rintro i (rfl | hi) hj
    · exact hs.from_master.1
    · exact hs.from_slaves i hi hj
  have hbj : ∀ i, i ∈ e.joined → e.base k base g i = (kstate (g.store e.master) k).version := fun i hi => if_pos hi
  have hbn : ∀ i, i ∉ e.joined → e.base k base g i = base i := fun i hi => if_neg hi
  -- what a node that has everything holds is in the history
  have hwhole : ∀ i, C i → ∀ x, kstate (g.store i) k = .record x → hist x := by
    intro i hi x hx
    rcases h.nodes i (hC i hi).1 x hx with h1 | h1
    · exact h1
    · have := (hC i hi).2
      rw [hx] at this
      exact absurd (UInt64.lt_of_lt_of_le h1 this) (UInt64.lt_irrefl _)
  have hold : ∀ x, NotAhead k (g.store e.master) x →
      (hist x ∧ x.version ≤ (kstate (g.store e.master) k).version) ∨ x.version < (kstate (g.store e.master) k).version := by
    rintro x (hx | hx)
    · exact .inr (by rw [← hv]; exact hx)
    · have hk := kstate_of_lookup (hg.nodes _).1.ok hx
      exact .inl ⟨hwhole _ hs.from_master.1 x hk, by rw [hk]; exact UInt64.le_refl _⟩
  have hle : ∀ i, i = e.master ∨ i ∈ e.slaves → i ∉ e.joined →
      (kstate (g.store i) k).version ≤ (kstate (g.store e.master) k).version := by
    rintro i (rfl | hi) hj
    · exact UInt64.le_refl _
    · rw [← hv, ← hv]; exact hs.newest i hi hj
  refine ⟨fun x => hist x ∧ x.version ≤ (kstate (g.store e.master) k).version,
    ⟨fun x y hx hy => h.unique x y hx.1 hy.1, fun x hx => h.pos x hx.1, ?_, ?_, ?_, ?_, h.fresh⟩, ?_, hs.knows, hs.others,
    fun x hx => hx.2, ?_, Nat.le_refl _⟩
  · intro i hi x hx
    by_cases hj : i ∈ e.joined
    · rw [hbj i hj]
      refine hold x (hs.old i hj x ?_)
      rw [kstate_lookup (hg.nodes i).1.ok, hx]
      exact if_neg (not_expired_min x)
    · refine .inl ⟨hwhole i (hL i hi hj) x hx, ?_⟩
      have := hle i hi hj
      rw [hx] at this
      exact this
  · intro f hf hk hd
    by_cases hj : f.dest ∈ e.joined
    · rw [hbj _ hj]; exact hold _ (hs.old_flying f hf hk hj)
    · rw [hbn _ hj]
      refine (h.copies f hf hk (hC _ (hL _ hd hj)).1).imp (fun h => ⟨h, ?_⟩) id
      have := hs.flying f hf hk (hd.imp id fun h => ⟨h, hj⟩)
      rw [hv] at this
      exact this
  · intro f hf hk hd
    by_cases hj : f.1 ∈ e.joined
    · rw [hbj _ hj]; exact hold _ (hs.old_dumps f hf hk hj)
    · rw [hbn _ hj]
      refine (h.dumps f hf hk (hC _ (hL _ hd hj)).1).imp (fun h => ⟨h, ?_⟩) id
      have := hs.dumps f hf hk (hd.imp id fun h => ⟨h, hj⟩)
      rw [hv] at this
      exact this
  · intro p hp h1 h2 h3
    obtain ⟨a, b⟩ := h.acked p hp h1 h2 h3
    have hC' : ∀ i, C i → p.2.e.version ≤ (kstate (g.store i) k).version := fun i hi =>
      (b i (hC i hi).1).elim (fun h => UInt64.le_trans h (hC i hi).2) id
    refine ⟨⟨a, hC' _ hs.from_master.1⟩, fun j hj => ?_⟩
    by_cases hjj : j ∈ e.joined
    · rw [hbj j hjj]; exact .inl (hC' _ hs.from_master.1)
    · exact .inr (hC' _ (hL j hj hjj))
  · rintro j hj
    have hjj : j ∉ e.joined := by
      rcases hj with rfl | hj
      · exact hs.from_master.2
      · exact hj.2
    rw [hbn j hjj]
    exact (hC j (hL j (hj.imp id (·.1)) hjj)).2
  · intro p hp h1
    exact absurd (h.fresh p hp) (Nat.not_lt.2 h1)

/-- The stores move on without a new item, flights vanish only when they have taken effect. -/
theorem Reign.move {rep : Bool} {k : Bytes} {since : Nat} {e : Era} {base : Nat → UInt64} {g g' : Group} {hist : Item → Prop}
    (h : Reign rep k since e base g hist) (hs : g'.slaves = g.slaves)
    (hup : ∀ i, Up (kstate (g.store i) k) (kstate (g'.store i) k))
    (hn : ∀ i, i = e.master ∨ i ∈ e.slaves → ∀ x, kstate (g'.store i) k = .record x → hist x ∨ x.version < base i)
    (hf : ∀ f ∈ g'.flying, f ∈ g.flying)
    (hf' : ∀ f ∈ g.flying, f.copy.entry.key = k → f.dest ∈ e.slaves →
      f ∈ g'.flying ∨ f.copy.entry.version ≤ (kstate (g'.store f.dest) k).version)
    (hd : ∀ d ∈ g'.dumps, d.2.key = k → d.1 = e.master ∨ d.1 ∈ e.slaves → hist d.2.item ∨ d.2.version < base d.1)
    (ho : g'.open_ = g.open_) (hx : g'.next = g.next) (ha : g'.acked = g.acked) : Reign rep k since e base g' hist := by
  refine ⟨h.past.move hup hn (fun f hf1 _ => hf f hf1) hd (by rw [ho, hx]; exact h.past.fresh)
    (fun p hp _ => by rw [← ha]; exact hp), fun j hj => UInt64.le_trans (h.full j hj) (hup j).le, by rw [hs]; exact h.master, by rw [hs]; exact h.others,
    fun x hx => UInt64.le_trans (h.top x hx) (hup _).le, ?_, by rw [hx]; exact h.since⟩
  rw [ho]
  intro p hp h0 h1 h2
  obtain ⟨a, b⟩ := h.opens p hp h0 h1 h2
  refine ⟨a, fun j hj => ?_⟩
  rcases b j hj with ⟨f, f0, f1, f2, f3, f4⟩ | hv
  · rcases hf' f f0 f3 (by rw [f2]; exact hj) with g1 | g1
    · exact .inl ⟨f, g1, f1, f2, f3, f4⟩
    · right
      rw [show p.2.2.e.version = f.copy.entry.version from (congrArg Item.version f4).symm, ← f2]; exact g1
  · exact .inr (UInt64.le_trans hv (hup j).le)

theorem Reign.step {rep : Bool} {k : Bytes} {since : Nat} {e : Era} {base : Nat → UInt64} {n : Nat} {g : Group} {hist : Item → Prop}
    (h : Reign rep k since e base g hist) (hg : GInv k n g) (hn : n + 1 < 2 ^ 64) {ev : GEv} (hf : ev.fine k g)
    (hs : ev.steadyIn k since e g) : ∃ hist', Reign rep k since e base (gStep rep g ev) hist' := by
  obtain ⟨-, hup⟩ := hg.step hn rep hf
  cases ev with
  | write i env path r refused =>
    by_cases hi : i = e.master
    · obtain ⟨f1, f2, f3⟩ := hf
      subst hi
      obtain ⟨v1, v2, v3⟩ := version_succ (hg.nodes e.master).2 hn
      obtain ⟨w1, w2, w3⟩ := node_write (hg.nodes e.master).1 f1 f2 f3 v1
      by_cases hkey : r.entry.key = k
      swap
      · -- another key
        refine ⟨hist, ?_⟩
        have hp := h.past.step hg hn (ev := .write e.master env path r refused) ⟨f1, f2, f3⟩ hkey
        refine ⟨hp, fun j hj => UInt64.le_trans (h.full j hj) (hup j).le, by simp only [gStep, h.master]; exact h.master, by simp only [gStep, h.master]; exact h.others,
          fun x hx => UInt64.le_trans (h.top x hx) (hup _).le, ?_, ?_⟩
        · intro p hp h0 h1 h2
          simp only [gStep, h.master] at hp
          rcases List.mem_append.1 hp with hp | hp
          · obtain ⟨a, b⟩ := h.opens p hp h0 h1 h2
            refine ⟨a, fun j hj => ?_⟩
            rcases b j hj with ⟨f, f0, f1⟩ | hv
            · refine .inl ⟨f, ?_, f1⟩
              simp only [gStep, h.master]
              exact List.mem_append_left _ f0
            · exact .inr (UInt64.le_trans hv (hup j).le)
          · rw [List.mem_singleton] at hp
            subst hp
            exact absurd h1 hkey
        · simp only [gStep, h.master]
          exact Nat.le_succ_of_le h.since
      have hcode : ∀ c, (atMaster (g.store e.master) env path r).2 = some c → c.entry.key = r.entry.key := fun c hc =>
        (master_copy (hg.nodes e.master).1.ok f1.2.2.2 hc).1.key
      have href : refused = [] := hs hkey
      subst href
      have hst0 : (gStep rep g (.write e.master env path r [])).store =
          (g.setStore e.master (atMaster (g.store e.master) env path r).1).store := by
        simp only [gStep, h.master]
      have hst : ∀ i, i ≠ e.master → (gStep rep g (.write e.master env path r [])).store i = g.store i := by
        intro i hi
        rw [hst0]; simp [Group.setStore, hi]
      have hst00 : (gStep rep g (.write e.master env path r [])).store e.master =
          (atMaster (g.store e.master) env path r).1 := by
        rw [hst0]; simp [Group.setStore]
      have hfl : (gStep rep g (.write e.master env path r [])).flying =
          g.flying ++ (atMaster (g.store e.master) env path r).2.toList.flatMap fun c =>
            e.slaves.map fun j => ⟨g.next, j, c⟩ := by
        simp only [gStep, h.master]
        simp
      have hop : (gStep rep g (.write e.master env path r [])).open_ =
          g.open_ ++ [(g.next, r, (Flare.step (g.store e.master) env r.call).2)] := by
        simp only [gStep, h.master]
      have hac : (gStep rep g (.write e.master env path r [])).acked = g.acked := by
        simp only [gStep, h.master]; rfl
      have hsl : (gStep rep g (.write e.master env path r [])).slaves = g.slaves := by
        simp only [gStep, h.master]; rfl
      have hdu : (gStep rep g (.write e.master env path r [])).dumps = g.dumps := by
        simp only [gStep, h.master]; rfl
      have hnx : (gStep rep g (.write e.master env path r [])).next = g.next + 1 := by
        simp only [gStep, h.master]
      generalize gStep rep g (.write e.master env path r []) = g' at *
      have mono : ∀ {j : Nat} {v : UInt64}, v ≤ (kstate (g.store j) k).version →
          v ≤ (kstate (g'.store j) k).version := fun {j v} hv => UInt64.le_trans hv (hup j).le
      have hfly : ∀ f ∈ g.flying, f ∈ g'.flying := fun f hf => by rw [hfl]; exact List.mem_append_left _ hf
      have hfresh : ∀ p ∈ g'.open_, p.1 < g'.next := by
        rw [hop, hnx]
        intro p hp
        rcases List.mem_append.1 hp with hp | hp
        · exact Nat.lt_succ_of_lt (h.past.fresh p hp)
        · rw [List.mem_singleton] at hp
          subst hp
          exact Nat.lt_succ_self _
      rcases w3 with ⟨e', e1⟩ | ⟨c, e0, e1, e2, e3⟩
      · -- nothing new about the key
        refine ⟨hist, h.past.move hup ?_ ?_ (by rw [hdu]; exact h.past.dumps) hfresh (fun p hp _ => by rw [← hac]; exact hp),
          fun j hj => mono (h.full j hj), by rw [hsl]; exact h.master, by rw [hsl]; exact h.others, fun x hx => mono (h.top x hx), ?_, by rw [hnx]; exact Nat.le_succ_of_le h.since⟩
        · intro i hi x hx
          by_cases him : i = e.master
          · subst him; rw [hst00, e'] at hx; exact h.past.nodes _ hi x hx
          · rw [hst i him] at hx; exact h.past.nodes i hi x hx
        · intro f hf hk
          rw [hfl] at hf
          rcases List.mem_append.1 hf with hf | hf
          · exact hf
          · simp only [List.mem_flatMap, Option.mem_toList, List.mem_map] at hf
            obtain ⟨c, hc, j, -, rfl⟩ := hf
            exact absurd hk (e1 c hc)
        · rw [hop]
          intro p hp h0 h1 h2
          rcases List.mem_append.1 hp with hp | hp
          · obtain ⟨a, b⟩ := h.opens p hp h0 h1 h2
            refine ⟨a, fun j hj => ?_⟩
            rcases b j hj with ⟨f, f1, f2⟩ | hv
            · exact .inl ⟨f, hfly f f1, f2⟩
            · exact .inr (mono hv)
          · rw [List.mem_singleton] at hp
            subst hp
            obtain ⟨c, hc⟩ := stored_copies (path := path) (f3 h1).2.1 h2
            exact absurd ((hcode c hc).trans h1) (e1 c hc)
      · -- a new item
        obtain ⟨hce, -, -⟩ := copied_result e0
        have hnew : ∀ x, hist x → x.version < c.entry.item.version := by
          intro x hx
          show _ < c.entry.version
          rw [e3]
          exact UInt64.lt_of_le_of_lt (h.top x hx) v3
        have hfl' : g'.flying = g.flying ++ e.slaves.map fun j => ⟨g.next, j, c⟩ := by
          rw [hfl, e0]; simp
        refine ⟨fun x => hist x ∨ x = c.entry.item, ⟨?_, ?_, ?_, ?_, ?_, ?_, hfresh⟩,
          fun j hj => mono (h.full j hj), by rw [hsl]; exact h.master, by rw [hsl]; exact h.others, ?_, ?_, by rw [hnx]; exact Nat.le_succ_of_le h.since⟩
        · intro x y hx hy hv
          rcases hx with hx | rfl <;> rcases hy with hy | rfl
          · exact h.past.unique x y hx hy hv
          · exact absurd hv (UInt64.ne_of_lt (hnew x hx))
          · exact absurd hv.symm (UInt64.ne_of_lt (hnew y hy))
          · rfl
        · intro x hx
          rcases hx with hx | rfl
          · exact h.past.pos x hx
          · show c.entry.version ≠ 0
            rw [e3]; exact v1
        · intro i hi x hx
          by_cases him : i = e.master
          · subst him; rw [hst00, e2] at hx; cases hx; exact .inl (.inr rfl)
          · rw [hst i him] at hx; exact (h.past.nodes i hi x hx).imp .inl id
        · intro f hf hk hd
          rw [hfl'] at hf
          rcases List.mem_append.1 hf with hf | hf
          · exact (h.past.copies f hf hk hd).imp .inl id
          · obtain ⟨j, -, rfl⟩ := List.mem_map.1 hf
            exact .inl (.inr rfl)
        · rw [hdu]
          exact fun d hd hk hL => (h.past.dumps d hd hk hL).imp .inl id
        · rw [hac]
          intro p hp h1 h2 h3
          obtain ⟨a, b⟩ := h.past.acked p hp h1 h2 h3
          exact ⟨.inl a, fun j hj => (b j hj).imp id mono⟩
        · intro x hx
          rcases hx with hx | rfl
          · exact mono (h.top x hx)
          · rw [hst00, e2]; exact UInt64.le_refl _
        · rw [hop]
          intro p hp h0 h1 h2
          rcases List.mem_append.1 hp with hp | hp
          · obtain ⟨a, b⟩ := h.opens p hp h0 h1 h2
            refine ⟨.inl a, fun j hj => ?_⟩
            rcases b j hj with ⟨f, f1, f2⟩ | hv
            · exact .inl ⟨f, hfly f f1, f2⟩
            · exact .inr (mono hv)
          · rw [List.mem_singleton] at hp
            subst hp
            refine ⟨.inr (by rw [hce]), fun j hj => .inl ⟨⟨g.next, j, c⟩, ?_, rfl, rfl, e1, by rw [hce]⟩⟩
            rw [hfl']
            exact List.mem_append_right _ (List.mem_map.2 ⟨j, hj, rfl⟩)
    · refine ⟨hist, ?_⟩
      simp only [gStep, h.others i hi]
      exact h
  | arrive f env =>
    refine ⟨hist, ?_⟩
    have hp := (h.past.step hg hn (ev := .arrive f env) hf trivial).nodes
    simp only [gStep] at hup hp ⊢
    cases hx : g.flying[f]? with
    | none => exact h
    | some x =>
      simp only [hx] at hup hp ⊢
      have hxm := List.mem_of_getElem? hx
      refine h.move rfl hup hp (fun y hy => List.mem_of_mem_eraseIdx hy) ?_ h.past.dumps rfl rfl rfl
      intro y hy hk hd
      by_cases hyx : y = x
      · right
        subst hyx
        simp only [Group.setStore, if_pos]
        exact (arrive_hist (hg.nodes y.dest).1 hf (hg.copies y hxm).1
          (hist := fun z => hist z ∨ z.version < base y.dest) (h.past.nodes y.dest (.inr hd)) (fun hk => h.past.copies y hxm hk (.inr hd))).2 hk
      · left
        obtain ⟨m, hm⟩ := List.getElem?_of_mem hy
        refine List.mem_eraseIdx_iff_getElem?.2 ⟨m, ?_, hm⟩
        rintro rfl
        rw [hx] at hm
        exact hyx (Option.some.inj hm).symm
  | again f env =>
    refine ⟨hist, ?_⟩
    have hp := (h.past.step hg hn (ev := .again f env) hf trivial).nodes
    simp only [gStep] at hup hp ⊢
    cases hx : g.flying[f]? with
    | none => exact h
    | some x =>
      simp only [hx] at hup hp ⊢
      exact h.move rfl hup hp (fun y hy => hy) (fun y hy _ _ => .inl hy) h.past.dumps rfl rfl rfl
  | lose f =>
    refine ⟨hist, h.move rfl hup h.past.nodes (fun y hy => List.mem_of_mem_eraseIdx hy) ?_ h.past.dumps rfl rfl rfl⟩
    intro y hy hk hd
    left
    obtain ⟨m, hm⟩ := List.getElem?_of_mem hy
    refine List.mem_eraseIdx_iff_getElem?.2 ⟨m, ?_, hm⟩
    rintro rfl
    exact hs y hm hd hk
  | answer a =>
    refine ⟨hist, ?_⟩
    simp only [gStep]
    cases hx : g.open_[a]? with
    | none => exact h
    | some p =>
      obtain ⟨id, r, o⟩ := p
      simp only
      split
      · exact h
      next hb =>
        refine ⟨⟨h.past.unique, h.past.pos, h.past.nodes, h.past.copies, h.past.dumps, ?_,
          fun p hp => h.past.fresh p (List.mem_of_mem_eraseIdx hp)⟩, h.full, h.master, h.others, h.top,
          fun p hp => h.opens p (List.mem_of_mem_eraseIdx hp), h.since⟩
        intro p hp h1 h2 h3
        simp only at hp
        split at hp
        · exact h.past.acked p hp h1 h2 h3
        · rcases List.mem_append.1 hp with hp | hp
          · exact h.past.acked p hp h1 h2 h3
          · rw [List.mem_singleton] at hp
            subst hp
            obtain ⟨a, b⟩ := h.opens _ (List.mem_of_getElem? hx) (hs _ hx h1) h1 h2
            refine ⟨a, ?_⟩
            rintro j (rfl | hj)
            · exact .inr (h.top _ a)
            right
            rcases b j hj with ⟨f, f1, f2, -⟩ | hv
            · exfalso
              apply hb
              simp only at h3
              rw [h3, Bool.true_and, List.any_eq_true]
              exact ⟨f, f1, by simpa using f2⟩
            · exact hv
  | read i env e' =>
    refine ⟨hist, h.move rfl hup ?_ (fun y hy => hy) (fun y hy _ _ => .inl hy) h.past.dumps rfl rfl rfl⟩
    exact (h.past.step hg hn (ev := .read i env e') hf trivial).nodes
  | role i l => exact hs.elim
  | dump i j env k' =>
    obtain ⟨-, r2, r3⟩ := node_dumps (hg.nodes i).1 env k'
    refine ⟨hist, h.move rfl hup ?_ (fun y hy => hy) (fun y hy _ _ => .inl hy) ?_ rfl rfl rfl⟩
    · intro j hj y hy
      simp only [gStep, Group.setStore] at hy
      split at hy
      · subst_vars
        rw [r2] at hy; exact h.past.nodes _ hj y hy
      · exact h.past.nodes j hj y hy
    · intro d hd hk hL
      simp only [gStep] at hd
      rcases List.mem_append.1 hd with hd | hd
      · exact h.past.dumps d hd hk hL
      · split at hd
        next e' he =>
          rw [List.mem_singleton] at hd
          subst hd
          obtain ⟨-, d2, d3⟩ := r3 e' he
          rcases hs (d2.symm.trans hk) with rfl | ⟨n1, n2⟩
          · left
            rcases h.past.nodes e.master (.inl rfl) _ (d3 hk) with h1 | h1
            · exact h1
            · have := h.full e.master (.inl rfl)
              rw [d3 hk] at this
              exact absurd (UInt64.lt_of_lt_of_le h1 this) (UInt64.lt_irrefl _)
          · rcases hL with hL | hL
            · exact absurd hL n1
            · exact absurd hL n2
        · cases hd
  | put d env =>
    refine ⟨hist, ?_⟩
    have hp := h.past.step hg hn (ev := .put d env) hf trivial
    have hp1 := hp.nodes
    have hp2 := hp.dumps
    simp only [gStep] at hup hp1 hp2 ⊢
    cases hx : g.dumps[d]? with
    | none => exact h
    | some x =>
      obtain ⟨j, e'⟩ := x
      simp only [hx] at hup hp1 hp2 ⊢
      exact h.move rfl hup hp1 (fun y hy => hy) (fun y hy _ _ => .inl hy) hp2 rfl rfl rfl
  | drop d =>
    exact ⟨hist, h.move rfl hup h.past.nodes (fun y hy => hy) (fun y hy _ _ => .inl hy)
      (fun d hd hk => h.past.dumps d (List.mem_of_mem_eraseIdx hd) hk) rfl rfl rfl⟩

theorem Reign.run {rep : Bool} {k : Bytes} {since : Nat} {e : Era} {base : Nat → UInt64} : ∀ {evs : List GEv} {n : Nat} {g : Group}
    {hist : Item → Prop}, Reign rep k since e base g hist → GInv k n g → n + evs.length < 2 ^ 64 → Fine rep k g evs →
    SteadyIn rep k since e g evs → ∃ hist', Reign rep k since e base (gRun rep g evs) hist'
  | [], _, _, hist, h, _, _, _, _ => ⟨hist, h⟩
  | ev :: evs, n, g, _, h, hg, hn, hf, hs => by
    simp only [List.length_cons] at hn
    obtain ⟨hist', h'⟩ := h.step hg (by omega) hf.1 hs.1
    exact h'.run (evs := evs) (hg.step (by omega) rep hf.1).1 (by omega) hf.2 hs.2

/-- A record of a dump that was read from the master and has arrived. -/
theorem rebuilt_full {rep : Bool} {k : Bytes} {e : Era} {n : Nat} {g : Group} (hg : GInv k n g)
    (hn : n + e.evs.length < 2 ^ 64) (hf : Fine rep k g e.evs) {j : Nat} (hr : Rebuilt rep k e g j) :
    (kstate (g.store e.master) k).version ≤ (kstate ((gRun rep g e.evs).store j) k).version := by
  obtain ⟨a, env, b, he, hx⟩ := hr
  rw [he] at hf hn ⊢
  rw [List.length_append] at hn
  obtain ⟨hf1, hf2⟩ := fine_append.1 hf
  obtain ⟨hg1, hup1⟩ := hg.run (evs := a) (by omega) hf1
  rcases (hg1.nodes e.master).1.bare with hb | ⟨x, hb, hx0, -⟩
  · have := (hup1 e.master).le
    rw [hb] at this
    rw [UInt64.le_zero_iff.1 this]
    exact UInt64.zero_le
  · obtain ⟨b1, d, env', b2, r, rfl, hd, hk, hit⟩ := hx x (bare_lookup (hg1.nodes _).1.ok hb hx0 _)
    have hle : (kstate (g.store e.master) k).version ≤ r.version := by
      have := (hup1 e.master).le
      rw [hb] at this
      rw [show r.version = x.version from congrArg Item.version hit]
      exact this
    refine UInt64.le_trans hle ?_
    have hcat : a ++ GEv.dump e.master j env k :: (b1 ++ GEv.put d env' :: b2) =
        (a ++ GEv.dump e.master j env k :: b1) ++ (GEv.put d env' :: b2) := by simp
    have hlen := congrArg List.length hcat
    simp only [List.length_append, List.length_cons] at hlen hn
    rw [hcat] at hf ⊢
    obtain ⟨hf3, hf4⟩ := fine_append.1 hf
    obtain ⟨hg2, -⟩ := hg.run (evs := a ++ GEv.dump e.master j env k :: b1)
      (by simp only [List.length_append, List.length_cons]; omega) hf3
    rw [gRun_append]
    generalize hgen : gRun rep g (a ++ GEv.dump e.master j env k :: b1) = g2 at *
    show _ ≤ (kstate ((gRun rep (gStep rep g2 (.put d env')) b2).store j) k).version
    simp only [List.length_append, List.length_cons] at hg2
    obtain ⟨hg3, -⟩ := hg2.step (by omega) rep hf4.1
    obtain ⟨-, hup3⟩ := hg3.run (evs := b2) (by omega) hf4.2
    refine UInt64.le_trans ?_ (hup3 j).le
    simp only [gStep, hd, Group.setStore, if_pos]
    obtain ⟨-, -, p3⟩ := node_put (hg2.nodes j).1 hf4.1 (hg2.dumps _ (List.mem_of_getElem? hd)).1
    rcases p3 hk with ⟨p, -⟩ | ⟨p, hle⟩
    · rw [p]; exact UInt64.le_refl _
    · rw [p]; exact hle

/-- The state in which the last era begins. -/
def lastStart (rep : Bool) : Group → List Era → Group
  | g, [] => g
  | g, [e] => gRun rep g e.gap
  | g, e :: es => lastStart rep (gRun rep g e.events) es

/-- Era after era: what is known of the nodes of the last one. -/
theorem reigned_run {rep : Bool} {k : Bytes} : ∀ (es : List Era) (n : Nat) (g : Group) (C L : Nat → Prop)
    (base : Nat → UInt64) (hist : Item → Prop), Past rep k L base g hist →
    (∀ i, C i → L i ∧ base i ≤ (kstate (g.store i) k).version) → GInv k n g →
    n + (es.flatMap Era.events).length < 2 ^ 64 → Fine rep k g (es.flatMap Era.events) → Reigned rep k C g es →
    ∃ L' base' hist', Past rep k L' base' (gRun rep g (es.flatMap Era.events)) hist' ∧
      ∀ i, (match es.getLast? with | none => C i | some e => Whole rep k e (lastStart rep g es) i) →
        L' i ∧ base' i ≤ (kstate ((gRun rep g (es.flatMap Era.events)).store i) k).version
  | [], n, g, C, L, base, hist, h, hC, _, _, _, _ => ⟨L, base, hist, h, hC⟩
  | e :: es, n, g, C, L, base, hist, h, hC, hg, hn, hf, hr => by
    obtain ⟨r1, r2, r3, r4⟩ := hr
    simp only [List.flatMap_cons, List.length_append, Era.events] at hn
    simp only [List.flatMap_cons] at hf ⊢
    obtain ⟨hf1, hf2⟩ := fine_append.1 hf
    simp only [Era.events] at hf1
    obtain ⟨hf0, hf1⟩ := fine_append.1 hf1
    obtain ⟨hg1, hup1⟩ := hg.run (evs := e.gap) (by omega) hf0
    have h1 := h.run hg (by omega) hf0 r1
    obtain ⟨hist1, h2⟩ := h1.succeed hg1 (fun i hi => ⟨(hC i hi).1, UInt64.le_trans (hC i hi).2 (hup1 i).le⟩) r2
    obtain ⟨hg2, -⟩ := hg1.run (evs := e.evs) (by omega) hf1
    obtain ⟨hist2, h3⟩ := h2.run hg1 (by omega) hf1 r3
    have hW : ∀ i, Whole rep k e (gRun rep g e.gap) i → (i = e.master ∨ i ∈ e.slaves) ∧
        e.base k base (gRun rep g e.gap) i ≤ (kstate ((gRun rep (gRun rep g e.gap) e.evs).store i) k).version := by
      intro i hi
      refine ⟨hi.imp id (·.1), ?_⟩
      by_cases hj : i = e.master ∨ i ∈ e.slaves ∧ i ∉ e.joined
      · exact h3.full i hj
      · rcases hi with hi | ⟨hi, hi' | hi'⟩
        · exact absurd (.inl hi) hj
        · exact absurd (.inr ⟨hi, hi'⟩) hj
        · have hjj : i ∈ e.joined := Classical.byContradiction fun h => hj (.inr ⟨hi, h⟩)
          rw [show e.base k base (gRun rep g e.gap) i = _ from if_pos hjj]
          exact rebuilt_full hg1 (by omega) hf1 hi'
    rw [← gRun_append] at h3 hg2 hW
    rw [gRun_append]
    obtain ⟨L', base', hist3, h4, h5⟩ := reigned_run es _ _ _ _ _ hist2 h3.past hW hg2 (by omega) hf2 r4
    refine ⟨L', base', hist3, h4, ?_⟩
    cases es with
    | nil =>
      simp only [List.getLast?_singleton, lastStart]
      exact h5
    | cons e' es =>
      rw [List.getLast?_cons_cons]
      rw [List.getLast?_eq_some_getLast (List.cons_ne_nil e' es)] at h5 ⊢
      exact h5

end Flare
