import Verif.Lemmas.ClusterSteps

set_option linter.unusedSimpArgs false

namespace Flare

theorem IxInv.weaken {N : Nat} {s : Index} (h : IxInv true N s) (b : Bool) : IxInv b N s :=
  ⟨h.map, h.tables, fun v nm tt hv => ⟨(h.saved v nm tt hv).1, fun _ => (h.saved v nm tt hv).2 rfl⟩⟩

theorem IxInv.oldSaved {fresh : Bool} {N : Nat} {s : Index} (h : IxInv fresh N s) :
    ∀ v nm tt, s.saved = some (v, nm, tt) → ∃ M, MapOk M nm tt :=
  fun v nm tt hv => (h.saved v nm tt hv).1

/-- What a command may do to a fresh index server: nothing, or a change of the node map (to one that is
again consistent) followed by new tables and a save. -/
def IxResult (env : IEnv) (N : Nat) (s : Index) (r : Index × Int) : Prop :=
  r.1 = s ∨ ∃ N' s1, N ≤ N' ∧ s1.saved = s.saved ∧ s1.version = s.version ∧
    MapOk N' s1.nodes s1.threadType ∧
    r = ((save env (install s1)).1, if env.storeOk then 0 else -1)

theorem IxResult.inv {env : IEnv} {N : Nat} {s : Index} {r : Index × Int} (h : IxInv true N s)
    (hr : IxResult env N s r) : ∃ N', N ≤ N' ∧ IxInv env.storeOk N' r.1 := by
  rcases hr with hr | ⟨N', s1, hN, hs, -, hm, hr⟩
  · exact ⟨N, Nat.le_refl _, by rw [hr]; exact h.weaken _⟩
  · refine ⟨N', hN, ?_⟩
    rw [hr]
    have := finish_inv hm (by rw [hs]; exact h.oldSaved) env
    rwa [finish_eq] at this

theorem IxResult.fin {env : IEnv} {N N' : Nat} {s s1 : Index} (hN : N ≤ N') (hs : s1.saved = s.saved)
    (hv : s1.version = s.version) (hm : MapOk N' s1.nodes s1.threadType) : IxResult env N s (finish env s1) :=
  Or.inr ⟨N', s1, hN, hs, hv, hm, finish_eq env s1⟩

/-! ### add -/

theorem filter_mset_proxy (nodes : NodeMap) (k : NodeKey) (n : Node) (hk : mfind nodes k = none)
    (hr : n.role = .proxy) :
    (mset nodes k n).filter (fun e => e.2.role ≠ .proxy) = nodes.filter (fun e => e.2.role ≠ .proxy) := by
  induction nodes with
  | nil => simp [mset, hr]
  | cons e m ih =>
    obtain ⟨k', v⟩ := e
    simp only [mfind] at hk
    have hne : ¬ k' = k := by intro h; simp [h] at hk
    simp only [hne, if_false] at hk
    simp only [mset]
    split
    · simp [hr]
    · rw [if_neg (fun h => hne h.symm)]
      simp only [List.filter_cons, ih hk]

theorem foldl_skip {α β : Type} (f : β → α → β) (p : α → Bool) (h : ∀ b a, p a = false → f b a = b)
    (l : List α) (b : β) : l.foldl f b = (l.filter p).foldl f b := by
  induction l generalizing b with
  | nil => rfl
  | cons a l ih =>
    simp only [List.foldl_cons, List.filter_cons]
    cases hp : p a
    · rw [h b a hp]; simp [ih]
    · simp [ih]

theorem reconstruct_filter (near : NodeKey → Bool) (nodes : NodeMap) :
    reconstruct near nodes = reconstruct near (nodes.filter fun e => e.2.role ≠ .proxy) := by
  simp only [reconstruct]
  rw [foldl_skip (passMaster near) (fun e => e.2.role ≠ .proxy) ?_ nodes,
    foldl_skip (passSlave near) (fun e => e.2.role ≠ .proxy) ?_ nodes]
  · rintro t ⟨k, n⟩ h
    simp only [ne_eq, decide_not, Bool.not_eq_false', decide_eq_true_eq] at h
    simp [passSlave, h]
  · rintro t ⟨k, n⟩ h
    simp only [ne_eq, decide_not, Bool.not_eq_false', decide_eq_true_eq] at h
    simp [passMaster, h]

theorem reconstruct_mset_proxy (near : NodeKey → Bool) (nodes : NodeMap) (k : NodeKey) (n : Node)
    (hk : mfind nodes k = none) (hr : n.role = .proxy) :
    reconstruct near (mset nodes k n) = reconstruct near nodes := by
  rw [reconstruct_filter, filter_mset_proxy nodes k n hk hr, ← reconstruct_filter]

theorem install_same {s : Index} (h : TablesOk s) : install s = s := by
  simp only [install, show reconstruct (fun _ => false) s.nodes = _ from h]

theorem addNode_result {N : Nat} {s : Index} (h : IxInv true N s) (env : IEnv) (k : NodeKey) :
    IxResult env N s (addNode env s k) := by
  simp only [addNode, h.withLoad]
  split
  swap
  · exact Or.inl rfl
  simp only [store_eq]
  cases hk : mfind s.nodes k with
  | some n =>
    simp only
    split
    · refine Or.inr ⟨N, s, Nat.le_refl _, rfl, rfl, h.map, ?_⟩
      rw [install_same h.tables]
    · exact Or.inl rfl
  | none =>
    simp only
    refine Or.inr ⟨N, { s with
        nodes := mset s.nodes k ⟨.proxy, .active, -1, 0, s.threadType⟩
        threadType := s.threadType + 1 }, Nat.le_refl _, rfl, rfl, ?_, ?_⟩
    · have hc := h.map.counter
      refine ⟨mset_sorted _ _ _ h.map.sorted, ?_, ?_, ?_, by simp only; omega⟩
      · simp only [mfind_mset']
        apply h.map.good.set_proxy
        · intro n0 h0; rw [hk] at h0; cases h0
        · intro n hn; cases hn; simp
      · intro x n hx
        simp only [mfind_mset'] at hx
        by_cases hkx : k = x
        · subst hkx; rw [upd_self] at hx; cases hx; simp only; omega
        · rw [upd_ne _ _ hkx] at hx
          have := h.map.types x n hx
          simp only; omega
      · intro x n x' n' hx hx' he
        simp only [mfind_mset'] at hx hx'
        by_cases hkx : k = x <;> by_cases hkx' : k = x'
        · rw [← hkx, ← hkx']
        · subst hkx; rw [upd_self] at hx; cases hx
          rw [upd_ne _ _ hkx'] at hx'
          have := h.map.types x' n' hx'
          simp only at he; omega
        · subst hkx'; rw [upd_self] at hx'; cases hx'
          rw [upd_ne _ _ hkx] at hx
          have := h.map.types x n hx
          simp only at he; omega
        · rw [upd_ne _ _ hkx] at hx
          rw [upd_ne _ _ hkx'] at hx'
          exact h.map.distinct x n x' n' hx hx' he
    · rw [install_same]
      have := reconstruct_mset_proxy (fun _ => false) s.nodes k ⟨.proxy, .active, -1, 0, s.threadType⟩ hk rfl
      simp only [TablesOk, this]
      exact h.tables

/-! ### ready, up, remove -/

theorem readyNode_result {N : Nat} {s : Index} (h : IxInv true N s) (env : IEnv) (k : NodeKey) :
    IxResult env N s (readyNode env s k) := by
  simp only [readyNode, h.withLoad]
  split
  swap
  · exact Or.inl rfl
  cases hk : mfind s.nodes k with
  | none => exact Or.inl rfl
  | some n =>
    simp only
    split
    · exact Or.inl rfl
    · next hst =>
      have hst : n.state = .prepare := by simpa using hst
      refine IxResult.fin (Nat.le_refl N) rfl rfl ?_
      dsimp only
      apply h.map.modify hk
      · rfl
      · have hnp : n.role ≠ .proxy := by
          intro hp
          have := (h.map.good.proxy k n hk hp).2.2
          simp [hst] at this
        apply h.map.good.keep k hk
        · rfl
        · rfl
        · cases hr : n.role with
          | master => exact (h.map.good.master k n hk hr).1
          | slave => exact (h.map.good.slave k n hk hr).1
          | proxy => exact absurd hr hnp
        · exact hnp
        · simp
        · intro _; simp [hst]
        · intro _ _ hd; rw [hst] at hd; cases hd

theorem otherAlive_iff {nodes : NodeMap} (hs : Sorted nodes) (k : NodeKey) (p : Int) :
    otherAlive nodes k p = true ↔ ∃ k' m, k' ≠ k ∧ mfind nodes k' = some m ∧ m.state ≠ .down ∧
      m.partition = p := by
  simp only [otherAlive, List.any_eq_true, Bool.and_eq_true, decide_eq_true_eq]
  constructor
  · rintro ⟨e, he, ⟨h1, h2⟩, h3⟩
    exact ⟨e.1, e.2, h1, (mem_iff_mfind nodes hs _ _).1 he, h3, h2⟩
  · rintro ⟨k', m, h1, h2, h3, h4⟩
    exact ⟨(k', m), (mem_iff_mfind nodes hs _ _).2 h2, ⟨h1, h4⟩, h3⟩

/-- When a down master may go although other nodes of its partition are alive: another master is
active. -/
theorem other_master {N : Nat} {s : Index} (h : IxInv true N s) {k : NodeKey} {n : Node}
    (hk : mfind s.nodes k = some n) (hr : n.role = .master) (hd : n.state = .down)
    (hl : ¬ Loses s.nodes k) (ho : otherAlive s.nodes k n.partition = true) :
    ∃ k' m, k' ≠ k ∧ mfind s.nodes k' = some m ∧ m.role = .master ∧ m.partition = n.partition ∧
      (m.state = .active ∨ m.state = .down) := by
  rw [otherAlive_iff h.map.sorted] at ho
  by_contra hc
  apply hl
  refine ⟨n, hk, hr, hd, ho, ?_⟩
  rintro ⟨k', m, h1, h2, h3, h4⟩
  apply hc
  have hne : k' ≠ k := by rintro rfl; rw [hk] at h1; cases h1; exact h3 hd
  refine ⟨k', m, hne, h1, h2, h4, ?_⟩
  rcases state_cases m with h5 | h5
  · exact h5
  · have h6 := (h.map.good.master k' m h1 h2).2.2.2 h5
    have h7 := (h.map.good.master k n hk hr).2.2.1 (Or.inr hd)
    omega

theorem upNode_result {N : Nat} {s : Index} (h : IxInv true N s) (env : IEnv) (k : NodeKey)
    (hl : ¬ Loses s.nodes k) : IxResult env N s (upNode env s k) := by
  simp only [upNode, h.withLoad]
  split
  swap
  · exact Or.inl rfl
  cases hk : mfind s.nodes k with
  | none => exact Or.inl rfl
  | some n =>
    simp only
    split
    · exact Or.inl rfl
    next hna =>
    split
    · exact Or.inl rfl
    next hnp =>
    by_cases hrd : n.state = .ready ∨ (n.role = .slave ∧ n.state = .prepare)
    · cases hr : n.role with
      | proxy =>
        have := (h.map.good.proxy k n hk hr).2.2
        rcases hrd with h1 | h1
        · simp [h1] at this
        · simp [h1.2] at this
      | master =>
        have hst : n.state = .ready := by simpa [hr] using hrd
        refine IxResult.fin (Nat.le_succ N) rfl rfl ?_
        dsimp only
        apply h.map.modify hk
        · simp [hst]
        · apply h.map.good.activate k hk hr (Or.inr hst) <;>
          simp [hst, hr, (h.map.good.master k n hk hr).1]
      | slave =>
        refine IxResult.fin (Nat.le_refl N) rfl rfl ?_
        dsimp only
        apply h.map.modify hk
        · simp only [if_pos hrd]
        · apply h.map.good.keep k hk
          · simp only [if_pos hrd]
          · simp only [if_pos hrd]
          · simp only [if_pos hrd]; exact (h.map.good.slave k n hk hr).1
          · simp [hr]
          · simp
          · simp [hr]
          · simp [hr]
    · have hd : n.state = .down := by
        cases hst : n.state with
        | active => exact absurd hst hna
        | ready => exact absurd (Or.inl hst) hrd
        | down => rfl
        | prepare =>
          exfalso
          by_cases hs : n.role = .slave
          · exact hrd (Or.inr ⟨hs, hst⟩)
          · exact hnp ⟨hs, hst⟩
      refine IxResult.fin (Nat.le_refl N) rfl rfl ?_
      dsimp only
      apply h.map.modify hk
      · simp only [if_neg hrd]
        split
        · split <;> rfl
        · rfl
      · simp only [if_neg hrd]
        cases hr : n.role with
        | proxy =>
          simp only [reduceCtorEq, if_false]
          apply h.map.good.set_proxy
          · intro n0 h0; rw [hk] at h0; cases h0; simp [hr]
          · intro m hm; cases hm
            have := h.map.good.proxy k n hk hr
            exact ⟨rfl, rfl, this.2.1, Or.inl rfl⟩
        | slave => exact absurd hd (h.map.good.slave k n hk hr).2.1
        | master =>
          simp only [if_true]
          split
          · next ho =>
            obtain ⟨k', m, h1, h2, h3, h4, h5⟩ := other_master h hk hr hd hl ho
            apply h.map.good.drop_master k (n0 := n) _ h1 h2 h3 h4 h5
            · intro m hm; cases hm; exact ⟨rfl, rfl, rfl, Or.inl rfl⟩
            · intro m hm; rw [hk] at hm; cases hm; rfl
          · next ho =>
            rw [otherAlive_iff h.map.sorted] at ho
            apply h.map.good.keep k hk
            · rfl
            · rfl
            · exact (h.map.good.master k n hk hr).1
            · simp [hr]
            · simp
            · simp [hd]
            · intro _ _ _ k' n' hne hk' hr' hd' hp
              exact ho ⟨k', n', hne, hk', hd', hp⟩

theorem removeNode_result {N : Nat} {s : Index} (h : IxInv true N s) (env : IEnv) (k : NodeKey)
    (hl : ¬ Loses s.nodes k) : IxResult env N s (removeNode env s k) := by
  simp only [removeNode, h.withLoad]
  split
  swap
  · exact Or.inl rfl
  cases hk : mfind s.nodes k with
  | none => exact Or.inl rfl
  | some n =>
    simp only
    split
    · exact Or.inl rfl
    next hd =>
    split
    · exact Or.inl rfl
    next hm =>
    have hd : n.state = .down := by simpa using hd
    refine IxResult.fin (Nat.le_refl N) rfl rfl ?_
    have he := mfind_merase' s.nodes k
    refine h.map.of (merase_sorted _ _ h.map.sorted) ?_ ?_
    · simp only [he]
      by_cases hr : n.role = .master
      · have ho : otherAlive s.nodes k n.partition = true := by
          by_contra hc; exact hm ⟨hr, hc⟩
        obtain ⟨k', m, h1, h2, h3, h4, h5⟩ := other_master h hk hr hd hl ho
        apply h.map.good.drop_master k (n0 := n) _ h1 h2 h3 h4 h5
        · intro m hm; cases hm
        · intro m hm; rw [hk] at hm; cases hm; rfl
      · apply h.map.good.set_proxy
        · intro n0 h0; rw [hk] at h0; cases h0; exact hr
        · intro m hm; cases hm
    · simp only [he]
      exact KeepsTypes.upd hk _ (by intro n hn; cases hn)

/-! ### down -/

theorem slavesOf_present {nodes : NodeMap} (hs : Sorted nodes) (p : Int) :
    ∀ e ∈ slavesOf nodes p, ∃ n, mfind nodes e.1 = some n ∧ n.role = .slave ∧ n.partition = p := by
  rintro ⟨x, b⟩ he
  rw [mem_slavesOf hs] at he
  obtain ⟨n, h1, h2, -, h3, -⟩ := he
  exact ⟨n, h1, h2, h3⟩

theorem exists_of_mem {nodes : NodeMap} (hs : Sorted nodes) {k : NodeKey} {n : Node}
    (hk : mfind nodes k = some n) (hr : n.role = .master) (hst : n.state = .active ∨ n.state = .down) :
    exists_ nodes n.partition = true := (exists_iff hs _).2 ⟨k, n, hk, hr, hst, rfl⟩

theorem preparing_of_mem {nodes : NodeMap} (hs : Sorted nodes) {k : NodeKey} {n : Node}
    (hk : mfind nodes k = some n) (hr : n.role = .master) (hst : n.state = .prepare ∨ n.state = .ready) :
    preparing nodes n.partition = true := (preparing_iff hs _).2 ⟨k, n, hk, hr, hst, rfl⟩

/-- The slaves in the prepare table of a preparing master. -/
theorem prepare_slaves {fresh : Bool} {N : Nat} {s : Index} (h : IxInv fresh N s) {k : NodeKey} {n : Node}
    (hk : mfind s.nodes k = some n) (hr : n.role = .master) (hst : n.state = .prepare ∨ n.state = .ready) :
    (pget s.nppm n.partition).slaves = slavesOf s.nodes n.partition := by
  apply (TablesOk.describes h.map h.tables).1.prepSlaves (preparing_of_mem h.map.sorted hk hr hst)
  have hp := (h.map.good.master k n hk hr).2.2.2 hst
  cases he : exists_ s.nodes n.partition
  · rfl
  · have := (h.map.good.exists_range h.map.sorted _).1 he; omega

theorem main_slaves {fresh : Bool} {N : Nat} {s : Index} (h : IxInv fresh N s) {k : NodeKey} {n : Node}
    (hk : mfind s.nodes k = some n) (hr : n.role = .master) (hst : n.state = .active ∨ n.state = .down) :
    (pget s.npm n.partition).slaves = slavesOf s.nodes n.partition :=
  (TablesOk.describes h.map h.tables).1.slaves (exists_of_mem h.map.sorted hk hr hst)

/-- A preparing master and its slaves become proxies. -/
theorem MapOk.clear_preparing {N : Nat} {nodes : NodeMap} {tt : Int} (h : MapOk N nodes tt) {k : NodeKey}
    {n : Node} (hk : mfind nodes k = some n) (hr : n.role = .master)
    (hst : n.state = .prepare ∨ n.state = .ready) (st : NState) (hs : st = .active ∨ st = .down) :
    MapOk N (nmodify (clearSlaves nodes (slavesOf nodes n.partition)) k
      fun n => { n.clear with state := st }) tt := by
  have hpres := slavesOf_present h.sorted n.partition
  have hpres' : ∀ e ∈ slavesOf nodes n.partition, ∃ n, mfind nodes e.1 = some n := fun e he => by
    obtain ⟨m, h1, -⟩ := hpres e he; exact ⟨m, h1⟩
  have hf := mfind_clearSlaves (slavesOf nodes n.partition) nodes hpres'
  have h1 : MapOk N (clearSlaves nodes (slavesOf nodes n.partition)) tt := by
    refine h.of (clearSlaves_sorted _ _ h.sorted) (Good.clearSlaves _ _ h.good ?_) (KeepsTypes.clearSlaves _ _ hpres')
    intro e he
    obtain ⟨m, h1, h2, -⟩ := hpres e he
    exact ⟨m, h1, by simp [h2]⟩
  have hkn : k ∉ (slavesOf nodes n.partition).map (·.1) := by
    intro hc
    obtain ⟨e, he, rfl⟩ := List.mem_map.1 hc
    obtain ⟨m, h2, h3, -⟩ := hpres e he
    rw [hk] at h2; cases h2; rw [hr] at h3; cases h3
  have hk1 : mfind (clearSlaves nodes (slavesOf nodes n.partition)) k = some n := by
    rw [hf, if_neg hkn, hk]
  apply h1.modify hk1
  · rfl
  · apply h1.good.drop_preparing k hk1 hst
    · intro k' n' hne hk' hr' hp
      rw [hf] at hk'
      split at hk'
      · cases hm : mfind nodes k' with
        | none => simp [hm] at hk'
        | some m =>
          simp only [hm, Option.map_some, Option.some.injEq] at hk'
          rw [← hk'] at hr'; cases hr'
      · next hnot =>
        apply hnot
        have := h.good.slave k' n' hk' hr'
        exact List.mem_map.2 ⟨(k', if n'.state = .active then n'.balance else 0),
          (mem_slavesOf h.sorted).2 ⟨n', hk', hr', this.2.1, hp, rfl⟩, rfl⟩
    · intro m hm; cases hm; exact ⟨rfl, rfl, rfl, hs⟩

/-- The node map after an active master went down. -/
theorem down_active_master {N : Nat} {nodes : NodeMap} {tt : Int} (h : MapOk N nodes tt) {k : NodeKey}
    {n : Node} (hk : mfind nodes k = some n) (hr : n.role = .master) (hst : n.state = .active)
    {f : NodeKey} {m : Node} (hf : mfind nodes f = some m) (hrf : m.role = .slave)
    (hpf : m.partition = n.partition) (hsf : m.state = .active) (sum : Int) :
    MapOk N (nmodify (nmodify nodes f fun m =>
        { m with role := .master, balance := if sum = 0 then m.balance + 1 else m.balance }) k
      fun n => { n.clear with state := .down }) tt := by
  have hne : f ≠ k := by rintro rfl; rw [hk] at hf; cases hf; rw [hr] at hrf; cases hrf
  have e1 := mfind_nmodify nodes f (fun m => { m with role := .master, balance := if sum = 0 then m.balance + 1 else m.balance }) m hf
  have hk1 : mfind (nmodify nodes f fun m => { m with role := .master, balance := if sum = 0 then m.balance + 1 else m.balance }) k = some n := by
    rw [e1, upd_ne _ _ hne, hk]
  have e2 := mfind_nmodify _ k (fun n => { n.clear with state := .down }) n hk1
  refine h.of (nmodify_sorted _ _ _ (nmodify_sorted _ _ _ h.sorted)) ?_ ?_
  · rw [e2, e1]
    apply h.good.failover hk hr hst hf hrf hpf
    · rfl
    · rfl
    · have := (h.good.slave f m hf hrf).1
      simp only; split <;> omega
    · exact hsf
    · exact ⟨rfl, rfl, rfl, Or.inr rfl⟩
  · rw [e2]
    refine KeepsTypes.trans (g := upd (mfind nodes) f
      (some { m with role := .master, balance := if sum = 0 then m.balance + 1 else m.balance })) ?_ ?_
    · exact KeepsTypes.upd hf _ (by intro n hn; cases hn; rfl)
    · rw [e1]
      exact KeepsTypes.upd (by rw [upd_ne _ _ hne]; exact hk) _ (by intro n hn; cases hn; rfl)

/-- Two ways an active master can go down. -/
theorem downNode_active {N : Nat} {s : Index} (h : IxInv true N s) (env : IEnv) (hb : env.beginOk)
    (hlo : env.loadOk) {k : NodeKey} {n : Node} (hk : mfind s.nodes k = some n) (hr : n.role = .master)
    (hst : n.state = .active) :
    ((∀ x m, mfind s.nodes x = some m → m.role = .slave → m.partition = n.partition → m.state ≠ .active) ∧
      ∃ s1, s1.saved = s.saved ∧ s1.version = s.version ∧ s1.threadType = s.threadType ∧
        s1.nodes = nmodify s.nodes k (fun n => { n with state := .down }) ∧
        downNode env s k = finish env s1) ∨
    (∃ f m b sum s1, FirstBest s.nodes (slavesOf s.nodes n.partition) f b ∧ mfind s.nodes f = some m ∧
        m.role = .slave ∧ m.partition = n.partition ∧ m.state = .active ∧
        sum = ((slavesOf s.nodes n.partition).map (·.2)).sum ∧
        s1.saved = s.saved ∧ s1.version = s.version ∧ s1.threadType = s.threadType ∧
        s1.nodes = nmodify (nmodify s.nodes f fun m =>
          { m with role := .master, balance := if sum = 0 then m.balance + 1 else m.balance }) k
          (fun n => { n.clear with state := .down }) ∧
        downNode env s k = finish env s1) := by
  have hsl := main_slaves h hk hr (Or.inl hst)
  simp only [downNode, h.withLoad, hb, hlo, and_self, if_true, hk, hst, hr, reduceCtorEq, if_false,
    pget_ptouch, hsl]
  have hpres := slavesOf_present h.map.sorted n.partition
  have hpres' : ∀ e ∈ slavesOf s.nodes n.partition, ∃ n, mfind s.nodes e.1 = some n := fun e he => by
    obtain ⟨m, h1, -⟩ := hpres e he; exact ⟨m, h1⟩
  by_cases hlen : (slavesOf s.nodes n.partition).length = 0
  · left
    simp only [hlen, if_true]
    refine ⟨?_, ?_⟩
    · intro x m hx hrm hpm ha
      have : (x, if m.state = .active then m.balance else 0) ∈ slavesOf s.nodes n.partition :=
        (mem_slavesOf h.map.sorted).2 ⟨m, hx, hrm, by simp [ha], hpm, rfl⟩
      rw [List.length_eq_zero_iff.1 hlen] at this
      cases this
    · exact ⟨{ s with
        nodes := nmodify s.nodes k (fun n => { n with state := .down })
        npm := ptouch s.npm n.partition }, rfl, rfl, rfl, rfl, rfl⟩
  · simp only [hlen, if_false]
    rcases pickSlave_none s.nodes (slavesOf s.nodes n.partition) 0 hpres' with ⟨h1, h2⟩ | ⟨f, b, h1, h2⟩
    · left
      simp only [h1]
      refine ⟨?_, ?_⟩
      · intro x m hx hrm hpm ha
        have : (x, if m.state = .active then m.balance else 0) ∈ slavesOf s.nodes n.partition :=
          (mem_slavesOf h.map.sorted).2 ⟨m, hx, hrm, by simp [ha], hpm, rfl⟩
        exact h2 _ this ⟨m, hx, ha⟩
      · exact ⟨{ s with
          nodes := nmodify s.nodes k (fun n => { n with state := .down })
          npm := ptouch s.npm n.partition }, rfl, rfl, rfl, rfl, by simp only [if_true]⟩
    · right
      simp only [h1]
      obtain ⟨l1, l2, hl, ⟨m, hm, ham⟩, -, -⟩ := id h2
      obtain ⟨m', hm', hrm, hpm⟩ := hpres (f, b) (by rw [hl]; simp)
      simp only at hm'
      rw [hm] at hm'; cases hm'
      refine ⟨f, m, b, _, { s with
          npm := ptouch s.npm n.partition
          nodes := nmodify (nmodify s.nodes f fun m =>
            { m with role := .master, balance :=
              if ((slavesOf s.nodes n.partition).map (·.2)).sum = 0 then m.balance + 1 else m.balance }) k
            (fun n => { n.clear with state := .down }) }, h2, hm, hrm, hpm, ham, rfl, rfl, rfl, rfl, rfl, ?_⟩
      simp only [Int.zero_add, Bool.false_eq_true, if_false]

theorem downNode_result {N : Nat} {s : Index} (h : IxInv true N s) (env : IEnv) (k : NodeKey) :
    IxResult env N s (downNode env s k) := by
  by_cases hbl : env.beginOk ∧ env.loadOk
  swap
  · left; simp only [downNode, h.withLoad, hbl, if_false]
  cases hk : mfind s.nodes k with
  | none => left; simp only [downNode, h.withLoad, hbl, and_self, if_true, hk]
  | some n =>
    by_cases hd : n.state = .down
    · left; simp only [downNode, h.withLoad, hbl, and_self, if_true, hk, hd]
    by_cases hr : n.role = .master
    · by_cases hst : n.state = .active
      · rcases downNode_active h env hbl.1 hbl.2 hk hr hst with
          ⟨-, s1, e1, e2, e3, e4, e5⟩ | ⟨f, m, b, sum, s1, -, hm, hrm, hpm, ham, -, e1, e2, e3, e4, e5⟩
        · rw [e5]
          refine IxResult.fin (Nat.le_refl N) e1 e2 ?_
          rw [e3, e4]
          apply h.map.modify hk
          · rfl
          · apply h.map.good.keep k hk
            · rfl
            · rfl
            · exact (h.map.good.master k n hk hr).1
            · simp [hr]
            · simp [hr]
            · simp [hst]
            · simp
        · rw [e5]
          refine IxResult.fin (Nat.le_refl N) e1 e2 ?_
          rw [e3, e4]
          exact down_active_master h.map hk hr hst hm hrm hpm ham sum
      · have hpr : n.state = .prepare ∨ n.state = .ready := by
          cases hs : n.state <;> simp [hs] at hd hst ⊢
        have hsl := prepare_slaves h hk hr hpr
        have hc := h.map.clear_preparing hk hr hpr .down (Or.inr rfl)
        have : downNode env s k = finish env { s with
            nppm := ptouch s.nppm n.partition
            nodes := nmodify (clearSlaves s.nodes (slavesOf s.nodes n.partition)) k
              fun n => { n.clear with state := .down } } := by
          simp only [downNode, h.withLoad, hbl, and_self, if_true, hk, hd, hr, if_false, pget_ptouch]
          rcases hpr with hs | hs <;> simp only [hs, hsl] <;> rfl
        rw [this]
        exact IxResult.fin (Nat.le_refl N) rfl rfl hc
    · have : downNode env s k = finish env { s with
          nodes := nmodify s.nodes k fun n => { n.clear with state := .down } } := by
        simp only [downNode, h.withLoad, hbl, and_self, if_true, hk, hd, hr, if_false]
        rfl
      rw [this]
      refine IxResult.fin (Nat.le_refl N) rfl rfl ?_
      dsimp only
      apply h.map.modify hk
      · rfl
      · apply h.map.good.set_proxy
        · intro n0 h0; rw [hk] at h0; cases h0; exact hr
        · intro m hm; cases hm; exact ⟨rfl, rfl, rfl, Or.inr rfl⟩

/-! ### role -/

theorem checkPartition_some {nodes : NodeMap} (hs : Sorted nodes) {p : Int} {b : Bool}
    (h : checkPartition nodes p = some b) : 0 ≤ p ∧ ∃ k m, mfind nodes k = some m ∧ m.role = .master ∧
      m.state ≠ .down ∧ m.partition = p ∧ (b = true ↔ m.state ≠ .active) := by
  simp only [checkPartition] at h
  split at h
  · cases h
  · next hp =>
    simp only [Option.map_eq_some_iff] at h
    obtain ⟨e, he, hb⟩ := h
    have h1 := List.find?_some he
    have h2 := List.mem_of_find?_eq_some he
    simp only [Bool.and_eq_true, decide_eq_true_eq] at h1
    refine ⟨by omega, e.1, e.2, (mem_iff_mfind nodes hs _ _).1 h2, h1.1.1, h1.1.2, h1.2, ?_⟩
    rw [← hb]; simp

theorem checkPartitionForNew_some {N : Nat} {s : Index} (hs : Sorted s.nodes) (hN : s.npm.length = N)
    {p : Int} {b : Bool} (h : checkPartitionForNew s p = some b) : 0 ≤ p ∧
      ((b = true ∧ p = N ∧ ∀ k m, mfind s.nodes k = some m → m.role = .master → m.partition ≠ p) ∨
       (b = false ∧ p < N ∧ ∀ k m, mfind s.nodes k = some m → m.role = .master → m.state ≠ .down →
          m.partition ≠ p)) := by
  simp only [checkPartitionForNew, hN] at h
  split at h
  · cases h
  · next hp =>
    have hp0 : 0 ≤ p := by omega
    refine ⟨hp0, ?_⟩
    split at h
    · next hpN =>
      left
      split at h
      · cases h
      · next hno =>
        cases h
        refine ⟨rfl, hpN, ?_⟩
        intro k m hk hr hpm
        apply hno
        rw [List.any_eq_true]
        exact ⟨(k, m), (mem_iff_mfind _ hs _ _).2 hk, by simp [hr, hpm]⟩
    · next hpN =>
      right
      split at h
      · cases h
      · next hno =>
        cases h
        refine ⟨rfl, by omega, ?_⟩
        intro k m hk hr hd hpm
        apply hno
        rw [List.any_eq_true]
        exact ⟨(k, m), (mem_iff_mfind _ hs _ _).2 hk, by simp [hr, hpm, hd]⟩

theorem checkBalance_nonneg {nodes : NodeMap} {k : NodeKey} {b : Int} (h : checkBalance nodes k b = true) :
    0 ≤ b := by
  simp only [checkBalance] at h
  split at h
  · cases h
  · simp only [Bool.and_eq_true, decide_eq_true_eq] at h; exact h.1.1

theorem rebalance_ok {N : Nat} {s : Index} (h : IxInv true N s) {k : NodeKey} {n : Node}
    (hk : mfind s.nodes k = some n) (hnp : n.role ≠ .proxy) (hnd : n.state ≠ .down) {b : Int} (hb : 0 ≤ b) :
    MapOk N (nmodify s.nodes k fun n => { n with balance := b }) s.threadType := by
  apply h.map.modify hk
  · rfl
  · apply h.map.good.keep k hk
    · rfl
    · rfl
    · exact hb
    · exact hnp
    · intro _; exact hnd
    · intro _; exact Iff.rfl
    · intro _ _ h0; exact absurd h0 hnd

theorem setRole_result {N : Nat} {s : Index} (h : IxInv true N s) (env : IEnv) (k : NodeKey) (role : Role)
    (balance p : Int) : IxResult env N s (setRole env s k role balance p) := by
  simp only [setRole, h.withLoad]
  split
  swap
  · exact Or.inl rfl
  cases hk : mfind s.nodes k with
  | none => exact Or.inl rfl
  | some n =>
    simp only
    split
    · exact Or.inl rfl
    next hnd =>
    have hreb : n.role ≠ .proxy → IxResult env N s
        (if checkBalance s.nodes k balance then
          finish env { s with nodes := nmodify s.nodes k fun n => { n with balance := balance } }
        else (s, -1)) := by
      intro hnp
      split
      · next hc =>
        exact IxResult.fin (Nat.le_refl N) rfl rfl (rebalance_ok h hk hnp hnd (checkBalance_nonneg hc))
      · exact Or.inl rfl
    have hprx : n.role ≠ .master → IxResult env N s (finish env { s with
        nodes := nmodify s.nodes k fun n => { n.clear with state := .active } }) := by
      intro hnm
      refine IxResult.fin (Nat.le_refl N) rfl rfl ?_
      dsimp only
      apply h.map.modify hk
      · rfl
      · apply h.map.good.set_proxy
        · intro n0 h0; rw [hk] at h0; cases h0; exact hnm
        · intro m hm; cases hm; exact ⟨rfl, rfl, rfl, Or.inl rfl⟩
    split
    · next hpr =>
      cases hr : n.role with
      | proxy =>
        have := (h.map.good.proxy k n hk hr).2.2
        rcases hpr with h1 | h1 <;> simp [h1] at this
      | master =>
        cases role with
        | master => exact hreb (by simp [hr])
        | slave => exact Or.inl rfl
        | proxy =>
          simp only [pget_ptouch, prepare_slaves h hk hr hpr]
          exact IxResult.fin (Nat.le_refl N) rfl rfl (h.map.clear_preparing hk hr hpr .active (Or.inl rfl))
      | slave =>
        cases role with
        | master => exact Or.inl rfl
        | slave =>
          simp only
          split
          · exact hreb (by simp [hr])
          · exact Or.inl rfl
        | proxy => exact hprx (by simp [hr])
    · next hpr =>
      simp only [setRole.setActive]
      cases hr : n.role with
      | master =>
        cases role with
        | master => exact hreb (by simp [hr])
        | slave => exact Or.inl rfl
        | proxy => exact Or.inl rfl
      | slave =>
        cases role with
        | master => exact Or.inl rfl
        | slave => exact hreb (by simp [hr])
        | proxy =>
          simp only
          split
          · exact hprx (by simp [hr])
          · exact Or.inl rfl
      | proxy =>
        have hnm : ∀ n0, mfind s.nodes k = some n0 → n0.role ≠ .master := by
          intro n0 h0; rw [hk] at h0; cases h0; simp [hr]
        cases role with
        | proxy =>
          refine IxResult.fin (Nat.le_refl N) rfl rfl ?_
          dsimp only
          apply h.map.modify hk
          · rfl
          · apply h.map.good.set_proxy k hnm
            intro m hm; cases hm
            exact ⟨hr, h.map.good.proxy k n hk hr⟩
        | slave =>
          simp only
          split
          · exact Or.inl rfl
          · next prep hc =>
            obtain ⟨hp0, k', m, h1, h2, h3, h4, h5⟩ := checkPartition_some h.map.sorted hc
            refine IxResult.fin (Nat.le_refl N) rfl rfl ?_
            dsimp only
            apply h.map.modify hk
            · rfl
            · apply h.map.good.new_slave k hnm rfl hp0 _ _ h1 h2 h4
              · simp only; split
                · split <;> omega
                · omega
              · simp
        | master =>
          simp only
          split
          · exact Or.inl rfl
          · next prep hc =>
            have hN := (TablesOk.describes h.map h.tables).2
            obtain ⟨hp0, hcase⟩ := checkPartitionForNew_some h.map.sorted hN hc
            split
            · exact Or.inl rfl
            · next hb =>
              rcases hcase with ⟨rfl, hpN, hno⟩ | ⟨rfl, hpN, hno⟩
              · by_cases hz : p = 0
                · have hN0 : N = 0 := by omega
                  subst hN0
                  refine IxResult.fin (Nat.le_succ 0) rfl rfl ?_
                  dsimp only
                  apply h.map.modify hk
                  · rfl
                  · apply h.map.good.new_first k hnm
                    · intro k' n' h1 h2; rw [← hz]; exact hno k' n' h1 h2
                    · rfl
                    · exact hz
                    · simp only; omega
                    · simp [hz]
                · refine IxResult.fin (Nat.le_refl N) rfl rfl ?_
                  dsimp only
                  apply h.map.modify hk
                  · rfl
                  · apply h.map.good.new_preparing k hnm
                    · intro k' n' h1 h2; rw [← hpN]; exact hno k' n' h1 h2
                    · rfl
                    · exact hpN
                    · simp only; omega
                    · simp [hz]
              · refine IxResult.fin (Nat.le_refl N) rfl rfl ?_
                dsimp only
                apply h.map.modify hk
                · rfl
                · apply h.map.good.replace k hnm
                  · rfl
                  · exact hp0
                  · exact hpN
                  · simp only; omega
                  · simp
                  · exact hno

theorem step_result {N : Nat} {s : Index} (h : IxInv true N s) (env : IEnv) (c : ICmd)
    (hs : Safe s.nodes c) : IxResult env N s (ixStep env s c) := by
  cases c with
  | add k => exact addNode_result h env k
  | down k => exact downNode_result h env k
  | ready k => exact readyNode_result h env k
  | up k => exact upNode_result h env k hs
  | remove k => exact removeNode_result h env k hs
  | role k r b p => exact setRole_result h env k r b p
  | state k st =>
    cases st with
    | prepare => exact Or.inl rfl
    | down => exact downNode_result h env k
    | active => exact upNode_result h env k hs
    | ready => exact readyNode_result h env k

/-! ### Reloading and restarting -/

theorem init_mapOk : MapOk 0 [] 16 := by
  refine ⟨by simp [Sorted], ?_, by simp [mfind], by simp [mfind], by omega⟩
  constructor <;> intros <;> simp_all [mfind]
  omega

theorem init_inv : IxInv true 0 Index.init :=
  ⟨init_mapOk, rfl, by intro v nm tt h; cases h⟩

theorem startup_inv {saved : Option (Nat × NodeMap × Int)}
    (h : ∀ v nm tt, saved = some (v, nm, tt) → ∃ M, MapOk M nm tt) :
    ∃ s N, startup saved = some s ∧ IxInv true N s ∧ s.saved = saved := by
  cases saved with
  | none => exact ⟨Index.init, 0, by decide, init_inv, rfl⟩
  | some q =>
    obtain ⟨v, nm, tt⟩ := q
    obtain ⟨M, hM⟩ := h v nm tt rfl
    obtain ⟨t, h1, h2, -, -⟩ := hM.good.reconstruct (fun _ => false) hM.sorted
    simp only [startup, load, if_true, hM.loads, h1, h2]
    refine ⟨_, M, rfl, ⟨hM, ?_, ?_⟩, rfl⟩
    · simp only [TablesOk, h1]; cases t; simp_all
    · intro v' nm' tt' hs; cases hs; exact ⟨⟨M, hM⟩, fun _ => ⟨rfl, rfl, rfl⟩⟩

theorem update_inv {fresh : Bool} {N : Nat} {s : Index} (h : IxInv fresh N s) (env : IEnv) :
    ∃ N', IxInv (fresh || env.loadOk) N' (update env s) := by
  cases hl : env.loadOk
  · simp only [update, load, hl, Bool.or_false, Bool.false_eq_true, if_false]
    exact ⟨N, h⟩
  · simp only [update, load, hl, if_true]
    cases hs : s.saved with
    | none =>
      simp only [h.map.loads]
      refine ⟨N, ?_⟩
      obtain ⟨h1, h2, h3, h4, h5⟩ := install_ok h.map
      refine ⟨by rw [h2, h3]; exact h.map, h1, ?_⟩
      intro v nm tt hv; rw [h4, hs] at hv; cases hv
    | some q =>
      obtain ⟨v, nm, tt⟩ := q
      obtain ⟨⟨M, hM⟩, -⟩ := h.saved v nm tt hs
      simp only [hM.loads]
      refine ⟨M, ?_⟩
      obtain ⟨h1, h2, h3, h4, h5⟩ := install_ok
        (s := { s with version := v, nodes := nm, threadType := tt, saved := some (v, nm, tt) }) hM
      refine ⟨by rw [h2, h3]; exact hM, h1, ?_⟩
      intro v' nm' tt' hv
      rw [h4] at hv
      simp only [Option.some.injEq, Prod.mk.injEq] at hv
      obtain ⟨rfl, rfl, rfl⟩ := hv
      exact ⟨⟨M, hM⟩, fun _ => ⟨h5.symm, h2.symm, h3.symm⟩⟩

theorem run_inv (as : List IAct) : ∀ (fresh : Bool) (N : Nat) (s : Index), IxInv fresh N s →
    Orderly fresh s as → ∃ N', IxInv (freshAfter fresh as) N' (ixRun s as) := by
  induction as with
  | nil => intro fresh N s h _; exact ⟨N, h⟩
  | cons a as ih =>
    intro fresh N s h ho
    have hstep : ixRun s (a :: as) = ixRun (ixAct s a) as := rfl
    rw [hstep]
    cases a with
    | cmd env c =>
      obtain ⟨rfl, hsafe, ho⟩ := ho
      obtain ⟨N', -, h'⟩ := (step_result h env c hsafe).inv h
      exact ih _ N' _ h' ho
    | update env =>
      obtain ⟨N', h'⟩ := update_inv h env
      exact ih _ N' _ h' ho
    | restart =>
      obtain ⟨s', N', h1, h2, -⟩ := startup_inv h.oldSaved
      have : ixAct s .restart = s' := by simp only [ixAct, h1, Option.getD_some]
      have ho' : Orderly true (ixAct s .restart) as := ho
      simp only [freshAfter]
      rw [this] at ho' ⊢
      exact ih _ N' _ h2 ho'

theorem orderly_append (as bs : List IAct) : ∀ (fresh : Bool) (s : Index),
    Orderly fresh s (as ++ bs) ↔ Orderly fresh s as ∧ Orderly (freshAfter fresh as) (ixRun s as) bs := by
  induction as with
  | nil => intro fresh s; simp [Orderly, freshAfter, ixRun]
  | cons a as ih =>
    intro fresh s
    have hstep : ixRun s (a :: as) = ixRun (ixAct s a) as := rfl
    rw [hstep]
    cases a with
    | cmd env c => simp only [List.cons_append, Orderly, freshAfter, ih, and_assoc]
    | update env => simp only [List.cons_append, Orderly, freshAfter, ih]
    | restart => simp only [List.cons_append, Orderly, freshAfter, ih]

theorem MapOk.count {N M : Nat} {nodes : NodeMap} {tt tt' : Int} (h : MapOk N nodes tt)
    (h' : MapOk M nodes tt') : N = M := by
  obtain ⟨t, h1, -, -, h2⟩ := h.good.reconstruct (fun _ => false) h.sorted
  obtain ⟨t', h1', -, -, h2'⟩ := h'.good.reconstruct (fun _ => false) h'.sorted
  rw [h1] at h1'; cases h1'
  rw [← h2, h2']

/-- The stored node map has at least `M` partitions. -/
def SavedAtLeast (M : Nat) (s : Index) : Prop :=
  ∃ v nm tt M', s.saved = some (v, nm, tt) ∧ M ≤ M' ∧ MapOk M' nm tt

theorem IxResult.savedAtLeast {env : IEnv} {N M : Nat} {s : Index} {r : Index × Int} (h : IxInv true N s)
    (hr : IxResult env N s r) (hM : SavedAtLeast M s) : SavedAtLeast M r.1 := by
  rcases hr with hr | ⟨N', s1, hN, hs, hv, hm, hr⟩
  · rw [hr]; exact hM
  · rw [hr]
    obtain ⟨h1, h2, h3, h4, h5⟩ := install_ok hm
    obtain ⟨v, nm, tt, M', e1, e2, e3⟩ := hM
    simp only [save]
    cases env.storeOk
    · simp only [Bool.false_eq_true, if_false]
      exact ⟨v, nm, tt, M', by rw [← e1, ← hs, h4], e2, e3⟩
    · simp only [if_true]
      refine ⟨_, _, _, N', rfl, ?_, by rw [h2, h3]; exact hm⟩
      obtain ⟨rfl, rfl, rfl⟩ := (h.saved v nm tt e1).2 rfl
      have := h.map.count e3
      omega

theorem update_saved (env : IEnv) (s : Index) : (update env s).saved = s.saved := by
  simp only [update, load]
  cases env.loadOk
  · rfl
  · simp only [if_true]
    cases hs : s.saved with
    | none =>
      cases hb : (s.nodes.all fun e => e.2.threadType < s.threadType)
      · simp [hs, hb]
      · simp only [hb, install]; split <;> exact hs
    | some q =>
      obtain ⟨v, nm, tt⟩ := q
      cases hb : (nm.all fun e => e.2.threadType < tt)
      · simp [hb]
      · simp only [hb, install]; split <;> rfl

theorem run_saved (as : List IAct) : ∀ (fresh : Bool) (N M : Nat) (s : Index), IxInv fresh N s →
    Orderly fresh s as → SavedAtLeast M s → SavedAtLeast M (ixRun s as) := by
  induction as with
  | nil => intro fresh N M s _ _ h; exact h
  | cons a as ih =>
    intro fresh N M s h ho hM
    have hstep : ixRun s (a :: as) = ixRun (ixAct s a) as := rfl
    rw [hstep]
    cases a with
    | cmd env c =>
      obtain ⟨rfl, hsafe, ho⟩ := ho
      have hr := step_result h env c hsafe
      obtain ⟨N', -, h'⟩ := hr.inv h
      exact ih _ N' M _ h' ho (hr.savedAtLeast h hM)
    | update env =>
      obtain ⟨N', h'⟩ := update_inv h env
      refine ih _ N' M _ h' ho ?_
      obtain ⟨v, nm, tt, M', e1, e2⟩ := hM
      exact ⟨v, nm, tt, M', by rw [← e1]; exact update_saved env s, e2⟩
    | restart =>
      obtain ⟨s', N', h1, h2, h3⟩ := startup_inv h.oldSaved
      have : ixAct s .restart = s' := by simp only [ixAct, h1, Option.getD_some]
      have ho' : Orderly true (ixAct s .restart) as := ho
      rw [this] at ho' ⊢
      refine ih _ N' M _ h2 ho' ?_
      obtain ⟨v, nm, tt, M', e1, e2⟩ := hM
      exact ⟨v, nm, tt, M', by rw [h3, e1], e2⟩

/-- Commands that are answered with an error leave a fresh index server as it was. -/
theorem step_rejected {N : Nat} {s : Index} (h : IxInv true N s) (env : IEnv) (c : ICmd)
    (hst : env.storeOk = true) : (ixStep env s c).1 = s ∨ (ixStep env s c).2 = 0 := by
  have hres : ∀ r, IxResult env N s r → r.1 = s ∨ r.2 = 0 := by
    rintro r (hr | ⟨N', s1, -, -, -, -, rfl⟩)
    · exact Or.inl hr
    · right; simp only [hst, if_true]
  have hup : ∀ k, (upNode env s k).1 = s ∨ (upNode env s k).2 = 0 := by
    intro k
    simp only [upNode, h.withLoad]
    split
    swap
    · exact Or.inl rfl
    cases mfind s.nodes k with
    | none => exact Or.inl rfl
    | some n =>
      simp only
      split
      · exact Or.inl rfl
      · split
        · exact Or.inl rfl
        · right; simp only [finish_eq, hst, if_true]
  cases c with
  | add k => exact hres _ (addNode_result h env k)
  | down k => exact hres _ (downNode_result h env k)
  | ready k => exact hres _ (readyNode_result h env k)
  | up k => exact hup k
  | remove k =>
    simp only [ixStep, removeNode, h.withLoad]
    split
    swap
    · exact Or.inl rfl
    cases mfind s.nodes k with
    | none => exact Or.inl rfl
    | some n =>
      simp only
      split
      · exact Or.inl rfl
      · split
        · exact Or.inl rfl
        · right; simp only [finish_eq, hst, if_true]
  | role k r b p => exact hres _ (setRole_result h env k r b p)
  | state k st =>
    cases st with
    | prepare => exact Or.inl rfl
    | down => exact hres _ (downNode_result h env k)
    | active => exact hup k
    | ready => exact hres _ (readyNode_result h env k)

/-! ### Lists of masters -/

theorem activeMasters_mem {nodes : NodeMap} (hs : Sorted nodes) {p : Int} {k : NodeKey} {n : Node} :
    (k, n) ∈ activeMasters nodes p ↔ mfind nodes k = some n ∧ n.role = .master ∧ n.state = .active ∧
      n.partition = p := by
  simp only [activeMasters, List.mem_filter, Bool.and_eq_true, decide_eq_true_eq, mem_iff_mfind nodes hs,
    and_assoc]

theorem activeMasters_le_one {N : Nat} {nodes : NodeMap} {tt : Int} (h : MapOk N nodes tt) (p : Int) :
    (activeMasters nodes p).length ≤ 1 := by
  have hp : (activeMasters nodes p).Pairwise (fun a b => a.1 < b.1) := by
    have := List.pairwise_map.1 h.sorted
    exact List.Pairwise.sublist List.filter_sublist this
  match hl : activeMasters nodes p with
  | [] => simp
  | [a] => simp
  | a :: b :: l =>
    exfalso
    have ha := (activeMasters_mem h.sorted (p := p) (k := a.1) (n := a.2)).1 (by rw [hl]; simp)
    have hb := (activeMasters_mem h.sorted (p := p) (k := b.1) (n := b.2)).1 (by rw [hl]; simp)
    have := h.good.unique a.1 a.2 b.1 b.2 ha.1 hb.1 ha.2.1 hb.2.1 (by simp [ha.2.2.1]) (by simp [hb.2.2.1])
      (by rw [ha.2.2.2, hb.2.2.2])
    rw [hl] at hp
    have hlt := (List.pairwise_cons.1 hp).1 b (by simp)
    exact absurd this (Nat.ne_of_lt hlt)

theorem activeMasters_single {N : Nat} {nodes : NodeMap} {tt : Int} (h : MapOk N nodes tt) {k : NodeKey}
    {n : Node} (hk : mfind nodes k = some n) (hr : n.role = .master) (hst : n.state = .active) :
    activeMasters nodes n.partition = [(k, n)] := by
  have h1 := activeMasters_le_one h n.partition
  have h2 := (activeMasters_mem h.sorted).2 ⟨hk, hr, hst, rfl⟩
  match hl : activeMasters nodes n.partition with
  | [] => rw [hl] at h2; cases h2
  | [a] => rw [hl] at h2; simp only [List.mem_singleton] at h2; rw [h2]
  | a :: b :: l => rw [hl] at h1; simp at h1

theorem firstBest_least {nodes : NodeMap} (hs : Sorted nodes) {p : Int} {f : NodeKey} {b : Int}
    (h : FirstBest nodes (slavesOf nodes p) f b) : ∃ m, ActiveSlave nodes p f m ∧ b = m.balance ∧
      ∀ x m', ActiveSlave nodes p x m' → m'.balance < m.balance ∨ (m'.balance = m.balance ∧ f ≤ x) := by
  obtain ⟨l1, l2, hl, ⟨m, hm, ham⟩, h1, h2⟩ := h
  have hmem : (f, b) ∈ slavesOf nodes p := by rw [hl]; simp
  obtain ⟨m', e1, e2, e3, e4, e5⟩ := (mem_slavesOf hs).1 hmem
  rw [hm] at e1; cases e1
  simp only [ham, if_true] at e5
  refine ⟨m, ⟨hm, e2, ham, e4⟩, e5, ?_⟩
  rintro x m' ⟨g1, g2, g3, g4⟩
  have hx : (x, m'.balance) ∈ slavesOf nodes p := (mem_slavesOf hs).2 ⟨m', g1, g2, by simp [g3], g4, by simp [g3]⟩
  have hp : (slavesOf nodes p).Pairwise (fun a b => a.1 < b.1) := by
    simp only [slavesOf, List.pairwise_map]
    have := List.pairwise_map.1 hs
    exact List.Pairwise.sublist List.filter_sublist this
  rw [hl] at hx hp
  have hact : isActive nodes x := ⟨m', g1, g3⟩
  simp only [List.mem_append, List.mem_cons] at hx
  rcases hx with hx | hx | hx
  · left; rw [← e5]; exact h1 _ hx hact
  · cases hx; right; exact ⟨e5, Nat.le_refl _⟩
  · have h3 := h2 _ hx hact
    simp only at h3
    have h4 := (List.pairwise_append.1 hp).2.1
    have h5 := (List.pairwise_cons.1 h4).1 _ hx
    simp only at h5
    rcases Int.lt_or_eq_of_le h3 with h6 | h6
    · left; rw [← e5]; exact h6
    · right; exact ⟨by rw [← e5]; exact h6, Nat.le_of_lt h5⟩

end Flare
