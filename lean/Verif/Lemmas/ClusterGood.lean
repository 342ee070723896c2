import Verif.Lemmas.ClusterTables

set_option linter.unusedSimpArgs false

namespace Flare

/-- A function with one value changed. -/
def upd (f : NodeKey → Option Node) (k : NodeKey) (v : Option Node) : NodeKey → Option Node :=
  fun x => if k = x then v else f x

theorem upd_self (f : NodeKey → Option Node) (k : NodeKey) (v : Option Node) : upd f k v k = v := by
  simp [upd]

theorem upd_ne (f : NodeKey → Option Node) {k x : NodeKey} (v : Option Node) (h : k ≠ x) :
    upd f k v x = f x := by
  simp [upd, h]

theorem mfind_nmodify (m : NodeMap) (k : NodeKey) (g : Node → Node) (n : Node) (h : mfind m k = some n) :
    mfind (nmodify m k g) = upd (mfind m) k (some (g n)) := by
  funext x
  simp only [nmodify, mfind_mset, upd, nget, h, Option.getD_some]

theorem mfind_merase' (m : NodeMap) (k : NodeKey) : mfind (merase m k) = upd (mfind m) k none := by
  funext x; simp only [mfind_merase, upd]

theorem mfind_mset' (m : NodeMap) (k : NodeKey) (n : Node) :
    mfind (mset m k n) = upd (mfind m) k (some n) := by
  funext x; simp only [mfind_mset, upd]

/-- Fields of a node that do not depend on the others. -/
def NodeOk (N : Nat) (n : Node) : Prop :=
  (n.role = .proxy → n.partition = -1 ∧ n.balance = 0 ∧ (n.state = .active ∨ n.state = .down)) ∧
  (n.role = .master → 0 ≤ n.balance ∧ 0 ≤ n.partition ∧
    (n.state = .active ∨ n.state = .down → n.partition < N) ∧
    (n.state = .prepare ∨ n.state = .ready → n.partition = N)) ∧
  (n.role = .slave → 0 ≤ n.balance ∧ n.state ≠ .down ∧ 0 ≤ n.partition)

/-- One node changes; the number of partitions may grow by one. -/
theorem Good.update {N N' : Nat} {f : NodeKey → Option Node} (h : Good N f) (k : NodeKey)
    (v : Option Node)
    (hv : ∀ n, v = some n → NodeOk N' n)
    (hu : ∀ n, v = some n → n.role = .master → n.state ≠ .down → ∀ k' n', k' ≠ k → f k' = some n' →
      n'.role = .master → n'.state ≠ .down → n'.partition ≠ n.partition)
    (hh : ∀ n0, f k = some n0 → n0.role = .master → (n0.state = .active ∨ n0.state = .down) →
      (∃ n, v = some n ∧ n.role = .master ∧ n.partition = n0.partition ∧
        (n.state = .active ∨ n.state = .down)) ∨
      (∃ k' n', k' ≠ k ∧ f k' = some n' ∧ n'.role = .master ∧ n'.partition = n0.partition ∧
        (n'.state = .active ∨ n'.state = .down)))
    (hs : ∀ n0, f k = some n0 → n0.role = .master →
      (∃ n, v = some n ∧ n.role = .master ∧ n.partition = n0.partition) ∨
      (∃ k' n', k' ≠ k ∧ f k' = some n' ∧ n'.role = .master ∧ n'.partition = n0.partition) ∨
      (∀ k' n', k' ≠ k → f k' = some n' → n'.role = .slave → n'.partition ≠ n0.partition))
    (hsl : ∀ n, v = some n → n.role = .slave →
      ∃ k' n', k' ≠ k ∧ f k' = some n' ∧ n'.role = .master ∧ n'.partition = n.partition)
    (hN : N' = N ∨ (N' = N + 1 ∧
      (∀ k' m, k' ≠ k → f k' = some m → m.role = .master → m.state = .active ∨ m.state = .down) ∧
      ∃ n, v = some n ∧ n.role = .master ∧ n.partition = N ∧ n.state = .active)) :
    Good N' (upd f k v) := by
  have hle : (N : Int) ≤ N' := by rcases hN with h | h <;> omega
  constructor
  · intro x n hx hr
    by_cases hk : k = x
    · subst hk; rw [upd_self] at hx; exact (hv n hx).1 hr
    · rw [upd_ne f v hk] at hx; exact h.proxy x n hx hr
  · intro x n hx hr
    by_cases hk : k = x
    · subst hk; rw [upd_self] at hx; exact (hv n hx).2.1 hr
    · rw [upd_ne f v hk] at hx
      obtain ⟨h1, h2, h3, h4⟩ := h.master x n hx hr
      refine ⟨h1, h2, fun hc => by have := h3 hc; omega, fun hc => ?_⟩
      rcases hN with hN | ⟨hN, hp, -⟩
      · rw [hN]; exact h4 hc
      · exfalso
        have hp := hp x n (fun h => hk h.symm) hx hr
        cases hst : n.state <;> simp [hst] at hc hp
  · intro x n hx hr
    by_cases hk : k = x
    · subst hk; rw [upd_self] at hx
      obtain ⟨h1, h2, h3⟩ := (hv n hx).2.2 hr
      obtain ⟨k', n', hk', h4, h5, h6⟩ := hsl n hx hr
      exact ⟨h1, h2, h3, k', n', by rw [upd_ne f v (fun h => hk' h.symm)]; exact h4, h5, h6⟩
    · rw [upd_ne f v hk] at hx
      obtain ⟨h1, h2, h3, k', m, h4, h5, h6⟩ := h.slave x n hx hr
      refine ⟨h1, h2, h3, ?_⟩
      by_cases hk' : k = k'
      · subst hk'
        rcases hs m h4 h5 with ⟨m', hm', h7, h8⟩ | ⟨k2, m2, hne, h7, h8, h9⟩ | hno
        · exact ⟨k, m', by rw [upd_self]; exact hm', h7, by rw [h8, h6]⟩
        · exact ⟨k2, m2, by rw [upd_ne f v (fun h => hne h.symm)]; exact h7, h8, by rw [h9, h6]⟩
        · exact absurd h6.symm (hno x n (fun h => hk h.symm) hx hr)
      · exact ⟨k', m, by rw [upd_ne f v hk']; exact h4, h5, h6⟩
  · intro x n x' n' hx hx' hr hr' hd hd' hp
    by_cases hk : k = x <;> by_cases hk' : k = x'
    · rw [← hk, ← hk']
    · subst hk
      rw [upd_self] at hx
      rw [upd_ne f v hk'] at hx'
      exact absurd hp.symm (hu n hx hr hd x' n' (fun h => hk' h.symm) hx' hr' hd')
    · subst hk'
      rw [upd_self] at hx'
      rw [upd_ne f v hk] at hx
      exact absurd hp (hu n' hx' hr' hd' x n (fun h => hk h.symm) hx hr hd)
    · rw [upd_ne f v hk] at hx
      rw [upd_ne f v hk'] at hx'
      exact h.unique x n x' n' hx hx' hr hr' hd hd' hp
  · intro p hp0 hpN
    by_cases hpN' : p < N
    · obtain ⟨x, n, hx, h1, h2, h3⟩ := h.all p hp0 hpN'
      by_cases hk : k = x
      · subst hk
        rcases hh n hx h1 h3 with ⟨m, hm, h4, h5, h6⟩ | ⟨k2, m2, hne, h7, h8, h9, h10⟩
        · exact ⟨k, m, by rw [upd_self]; exact hm, h4, by rw [h5, h2], h6⟩
        · exact ⟨k2, m2, by rw [upd_ne f v (fun h => hne h.symm)]; exact h7, h8, by rw [h9, h2], h10⟩
      · exact ⟨x, n, by rw [upd_ne f v hk]; exact hx, h1, h2, h3⟩
    · rcases hN with hN | ⟨hN, -, n, hn, h1, h2, h3⟩
      · subst hN; exact absurd hpN hpN'
      · exact ⟨k, n, by rw [upd_self]; exact hn, h1, by omega, Or.inl h3⟩

/-- A node that is not a master becomes a proxy, or a proxy appears or disappears. -/
theorem Good.set_proxy {N : Nat} {f : NodeKey → Option Node} (h : Good N f) (k : NodeKey)
    (hk : ∀ n0, f k = some n0 → n0.role ≠ .master) (v : Option Node)
    (hv : ∀ n, v = some n → n.role = .proxy ∧ n.partition = -1 ∧ n.balance = 0 ∧
      (n.state = .active ∨ n.state = .down)) : Good N (upd f k v) := by
  apply h.update
  · intro n hn
    obtain ⟨h1, h2⟩ := hv n hn
    exact ⟨fun _ => h2, by simp [h1], by simp [h1]⟩
  · intro n hn hr; simp [(hv n hn).1] at hr
  · intro n0 h0 hr; exact absurd hr (hk n0 h0)
  · intro n0 h0 hr; exact absurd hr (hk n0 h0)
  · intro n hn hr; simp [(hv n hn).1] at hr
  · exact Or.inl rfl

/-- A master gives up its role while another master of its partition, active or down, stays. -/
theorem Good.drop_master {N : Nat} {f : NodeKey → Option Node} (h : Good N f) (k : NodeKey) {n0 : Node}
    (hk : ∀ m, f k = some m → m = n0) {k' : NodeKey} {n' : Node} (hne : k' ≠ k) (hk' : f k' = some n')
    (hr' : n'.role = .master)
    (hp' : n'.partition = n0.partition) (hst : n'.state = .active ∨ n'.state = .down) (v : Option Node)
    (hv : ∀ n, v = some n → n.role = .proxy ∧ n.partition = -1 ∧ n.balance = 0 ∧
      (n.state = .active ∨ n.state = .down)) : Good N (upd f k v) := by
  apply h.update
  · intro n hn
    obtain ⟨h1, h2⟩ := hv n hn
    exact ⟨fun _ => h2, by simp [h1], by simp [h1]⟩
  · intro n hn hr; simp [(hv n hn).1] at hr
  · intro m hm _ _; rw [hk m hm]; exact Or.inr ⟨k', n', hne, hk', hr', hp', hst⟩
  · intro m hm _; rw [hk m hm]; exact Or.inr (Or.inl ⟨k', n', hne, hk', hr', hp'⟩)
  · intro n hn hr; simp [(hv n hn).1] at hr
  · exact Or.inl rfl

/-- A preparing master without slaves gives up its role. -/
theorem Good.drop_preparing {N : Nat} {f : NodeKey → Option Node} (h : Good N f) (k : NodeKey) {n0 : Node}
    (hk : f k = some n0) (hst : n0.state = .prepare ∨ n0.state = .ready)
    (hno : ∀ k' n', k' ≠ k → f k' = some n' → n'.role = .slave → n'.partition ≠ n0.partition)
    (v : Option Node)
    (hv : ∀ n, v = some n → n.role = .proxy ∧ n.partition = -1 ∧ n.balance = 0 ∧
      (n.state = .active ∨ n.state = .down)) : Good N (upd f k v) := by
  apply h.update
  · intro n hn
    obtain ⟨h1, h2⟩ := hv n hn
    exact ⟨fun _ => h2, by simp [h1], by simp [h1]⟩
  · intro n hn hr; simp [(hv n hn).1] at hr
  · intro m hm _ hc; rw [hk] at hm; cases hm; exfalso
    cases hst' : n0.state <;> simp [hst'] at hst hc
  · intro m hm _; rw [hk] at hm; cases hm; exact Or.inr (Or.inr hno)
  · intro n hn hr; simp [(hv n hn).1] at hr
  · exact Or.inl rfl

/-- A node keeps role and partition; a master keeps its kind of state (active or down, against preparing
or ready) and does not come up next to another one. -/
theorem Good.keep {N : Nat} {f : NodeKey → Option Node} (h : Good N f) (k : NodeKey) {n0 n : Node}
    (hk : f k = some n0) (hr : n.role = n0.role) (hp : n.partition = n0.partition) (hb : 0 ≤ n.balance)
    (hpx : n0.role ≠ .proxy)
    (hsl : n0.role = .slave → n.state ≠ .down)
    (hm : n0.role = .master → ((n.state = .active ∨ n.state = .down) ↔ (n0.state = .active ∨ n0.state = .down)))
    (hu : n0.role = .master → n.state ≠ .down → n0.state = .down → ∀ k' n', k' ≠ k → f k' = some n' →
      n'.role = .master → n'.state ≠ .down → n'.partition ≠ n0.partition) :
    Good N (upd f k (some n)) := by
  apply h.update
  · intro m hm'; cases hm'
    refine ⟨by rw [hr]; intro h; exact absurd h hpx, ?_, ?_⟩
    · intro hr'
      have hr0 : n0.role = .master := by rw [← hr]; exact hr'
      obtain ⟨h1, h2, h3, h4⟩ := h.master k n0 hk hr0
      refine ⟨hb, by rw [hp]; exact h2, by rw [hp]; intro hc; exact h3 ((hm hr0).1 hc), ?_⟩
      intro hc; rw [hp]; apply h4
      rcases state_cases n0 with h5 | h5
      · have := (hm hr0).2 h5; exfalso; cases hst : n.state <;> simp [hst] at hc this
      · exact h5
    · intro hr'
      obtain ⟨h1, h2, h3, -⟩ := h.slave k n0 hk (by rw [← hr]; exact hr')
      exact ⟨hb, hsl (by rw [← hr]; exact hr'), by rw [hp]; exact h3⟩
  · intro m hm' hr' hd k' n' hne hk' hrk' hd'
    cases hm'
    have hr0 : n0.role = .master := by rw [← hr]; exact hr'
    rw [hp]
    by_cases h0 : n0.state = .down
    · exact hu hr0 hd h0 k' n' hne hk' hrk' hd'
    · intro hc; exact hne (h.unique k' n' k n0 hk' hk hrk' hr0 hd' h0 hc)
  · intro m hm' hr0 hc; rw [hk] at hm'; cases hm'
    exact Or.inl ⟨n, rfl, by rw [hr]; exact hr0, hp, (hm hr0).2 hc⟩
  · intro m hm' hr0; rw [hk] at hm'; cases hm'
    exact Or.inl ⟨n, rfl, by rw [hr]; exact hr0, hp⟩
  · intro m hm' hr'
    cases hm'
    have hr0 : n0.role = .slave := by rw [← hr]; exact hr'
    obtain ⟨-, -, -, k', m, h1, h2, h3⟩ := h.slave k n0 hk hr0
    refine ⟨k', m, ?_, h1, h2, by rw [h3, hp]⟩
    rintro rfl; rw [hk] at h1; cases h1; rw [hr0] at h2; cases h2
  · exact Or.inl rfl

/-- A ready master becomes active: there is one partition more. -/
theorem Good.activate {N : Nat} {f : NodeKey → Option Node} (h : Good N f) (k : NodeKey) {n0 n : Node}
    (hk : f k = some n0) (hr0 : n0.role = .master) (hst0 : n0.state = .prepare ∨ n0.state = .ready)
    (hr : n.role = .master) (hp : n.partition = n0.partition) (hb : 0 ≤ n.balance)
    (hst : n.state = .active) : Good (N + 1) (upd f k (some n)) := by
  obtain ⟨h1, h2, h3, h4⟩ := h.master k n0 hk hr0
  have hpN := h4 hst0
  have hd0 : n0.state ≠ .down := by rcases hst0 with h | h <;> simp [h]
  apply h.update (N' := N + 1)
  · intro m hm; cases hm
    refine ⟨by simp [hr], ?_, by simp [hr]⟩
    intro _
    refine ⟨hb, by rw [hp]; exact h2, by intro _; rw [hp, hpN]; omega, by simp [hst]⟩
  · intro m hm _ _ k' n' hne hk' hrk' hd' hc
    cases hm
    exact hne (h.unique k' n' k n0 hk' hk hrk' hr0 hd' hd0 (by rw [hc, hp]))
  · intro m hm _ hc; rw [hk] at hm; cases hm
    exfalso; cases hs : n0.state <;> simp [hs] at hc hst0
  · intro m hm _; rw [hk] at hm; cases hm
    exact Or.inl ⟨n, rfl, hr, hp⟩
  · intro m hm hr'; cases hm; rw [hr] at hr'; cases hr'
  · right
    refine ⟨rfl, ?_, n, rfl, hr, by rw [hp, hpN], hst⟩
    intro k' m hne hk' hrm
    rcases state_cases m with hc | hc
    · exact hc
    · exfalso
      have hm4 := (h.master k' m hk' hrm).2.2.2 hc
      exact hne (h.unique k' m k n0 hk' hk hrm hr0 (by rcases hc with h | h <;> simp [h]) hd0 (by rw [hm4, hpN]))

/-- A node that is no master becomes the preparing master of the next partition. -/
theorem Good.new_preparing {N : Nat} {f : NodeKey → Option Node} (h : Good N f) (k : NodeKey) {n : Node}
    (hk : ∀ n0, f k = some n0 → n0.role ≠ .master)
    (hno : ∀ k' n', f k' = some n' → n'.role = .master → n'.partition ≠ N)
    (hr : n.role = .master) (hp : n.partition = N) (hb : 0 ≤ n.balance)
    (hst : n.state = .prepare) : Good N (upd f k (some n)) := by
  apply h.update
  · intro m hm; cases hm
    exact ⟨by simp [hr], fun _ => ⟨hb, by rw [hp]; omega, by simp [hst], fun _ => hp⟩, by simp [hr]⟩
  · intro m hm _ _ k' n' _ hk' hrk' _
    cases hm; rw [hp]; exact hno k' n' hk' hrk'
  · intro n0 h0 hr0; exact absurd hr0 (hk n0 h0)
  · intro n0 h0 hr0; exact absurd hr0 (hk n0 h0)
  · intro m hm hr'; cases hm; rw [hr] at hr'; cases hr'
  · exact Or.inl rfl

/-- The first partition starts active. -/
theorem Good.new_first {f : NodeKey → Option Node} (h : Good 0 f) (k : NodeKey) {n : Node}
    (hk : ∀ n0, f k = some n0 → n0.role ≠ .master)
    (hno : ∀ k' n', f k' = some n' → n'.role = .master → n'.partition ≠ 0)
    (hr : n.role = .master) (hp : n.partition = 0) (hb : 0 ≤ n.balance)
    (hst : n.state = .active) : Good 1 (upd f k (some n)) := by
  apply h.update (N' := 1)
  · intro m hm; cases hm
    exact ⟨by simp [hr], fun _ => ⟨hb, by rw [hp]; omega, by intro _; rw [hp]; decide, by simp [hst]⟩, by simp [hr]⟩
  · intro m hm _ _ k' n' _ hk' hrk' _
    cases hm; rw [hp]; exact hno k' n' hk' hrk'
  · intro n0 h0 hr0; exact absurd hr0 (hk n0 h0)
  · intro n0 h0 hr0; exact absurd hr0 (hk n0 h0)
  · intro m hm hr'; cases hm; rw [hr] at hr'; cases hr'
  · right
    refine ⟨rfl, ?_, n, rfl, hr, by rw [hp]; rfl, hst⟩
    intro k' m _ hk' hrm
    rcases state_cases m with hc | hc
    · exact hc
    · have := (h.master k' m hk' hrm).2.2.2 hc
      exact absurd this (hno k' m hk' hrm)

/-- A node that is no master replaces the down masters of an existing partition. -/
theorem Good.replace {N : Nat} {f : NodeKey → Option Node} (h : Good N f) (k : NodeKey) {n : Node}
    (hk : ∀ n0, f k = some n0 → n0.role ≠ .master)
    (hr : n.role = .master) (hp0 : 0 ≤ n.partition) (hpN : n.partition < N) (hb : 0 ≤ n.balance)
    (hst : n.state = .active)
    (hno : ∀ k' n', f k' = some n' → n'.role = .master → n'.state ≠ .down → n'.partition ≠ n.partition) :
    Good N (upd f k (some n)) := by
  apply h.update
  · intro m hm; cases hm
    exact ⟨by simp [hr], fun _ => ⟨hb, hp0, fun _ => hpN, by simp [hst]⟩, by simp [hr]⟩
  · intro m hm _ _ k' n' _ hk' hrk' hd
    cases hm; exact hno k' n' hk' hrk' hd
  · intro n0 h0 hr0; exact absurd hr0 (hk n0 h0)
  · intro n0 h0 hr0; exact absurd hr0 (hk n0 h0)
  · intro m hm hr'; cases hm; rw [hr] at hr'; cases hr'
  · exact Or.inl rfl

/-- A node that is no master becomes slave of a partition with a master. -/
theorem Good.new_slave {N : Nat} {f : NodeKey → Option Node} (h : Good N f) (k : NodeKey) {n : Node}
    (hk : ∀ n0, f k = some n0 → n0.role ≠ .master) (hr : n.role = .slave) (hp0 : 0 ≤ n.partition)
    (hb : 0 ≤ n.balance) (hd : n.state ≠ .down) {k' : NodeKey} {m : Node} (hk' : f k' = some m)
    (hm : m.role = .master) (hp : m.partition = n.partition) : Good N (upd f k (some n)) := by
  apply h.update
  · intro m hm; cases hm
    exact ⟨by simp [hr], by simp [hr], fun _ => ⟨hb, hd, hp0⟩⟩
  · intro m hm hr'; cases hm; rw [hr] at hr'; cases hr'
  · intro n0 h0 hr0; exact absurd hr0 (hk n0 h0)
  · intro n0 h0 hr0; exact absurd hr0 (hk n0 h0)
  · intro m' hm' _; cases hm'
    refine ⟨k', m, ?_, hk', hm, hp⟩
    rintro rfl; exact hk m hk' hm
  · exact Or.inl rfl

/-- Failover: the active master `k` becomes a proxy and the active slave `x` of its partition master. -/
theorem Good.failover {N : Nat} {f : NodeKey → Option Node} (h : Good N f) {k x : NodeKey} {n0 m : Node}
    (hk : f k = some n0) (hr0 : n0.role = .master) (hst0 : n0.state = .active)
    (hx : f x = some m) (hrx : m.role = .slave) (hpx : m.partition = n0.partition)
    {m' v : Node} (hrm : m'.role = .master) (hpm : m'.partition = m.partition) (hbm : 0 ≤ m'.balance)
    (hsm : m'.state = .active)
    (hv : v.role = .proxy ∧ v.partition = -1 ∧ v.balance = 0 ∧ (v.state = .active ∨ v.state = .down)) :
    Good N (upd (upd f x (some m')) k (some v)) := by
  have hne : x ≠ k := by rintro rfl; rw [hk] at hx; cases hx; rw [hr0] at hrx; cases hrx
  obtain ⟨-, h2, h3, -⟩ := h.master k n0 hk hr0
  have hpN := h3 (Or.inl hst0)
  -- x becomes a master that is down
  have g1 : Good N (upd f x (some { m' with state := .down })) := by
    apply h.update
    · intro y hy; cases hy
      exact ⟨by simp [hrm], fun _ => ⟨hbm, by simp only [hpm, hpx]; exact h2, by simp only [hpm, hpx]; intro _; exact hpN, by simp⟩, by simp [hrm]⟩
    · intro y hy _ hd; cases hy; simp at hd
    · intro y hy hr'; rw [hx] at hy; cases hy; rw [hrx] at hr'; cases hr'
    · intro y hy hr'; rw [hx] at hy; cases hy; rw [hrx] at hr'; cases hr'
    · intro y hy hr'; cases hy; simp [hrm] at hr'
    · exact Or.inl rfl
  -- k becomes a proxy
  have g2 : Good N (upd (upd f x (some { m' with state := .down })) k (some v)) := by
    apply g1.drop_master k (n0 := n0) (k' := x) (n' := { m' with state := .down })
    · intro y hy; rw [upd_ne _ _ hne, hk] at hy; cases hy; rfl
    · exact hne
    · rw [upd_self]
    · exact hrm
    · simp only [hpm, hpx]
    · exact Or.inr rfl
    · intro y hy; cases hy; exact hv
  -- x becomes active
  have g3 := g2.keep x (n0 := { m' with state := .down }) (n := m') (by rw [upd_ne _ _ (fun h => hne h.symm), upd_self])
    rfl rfl hbm (by simp [hrm]) (by simp [hsm]) (by intro _; simp [hsm]) (by
      intro _ _ _ k' n' hne' hk' hr' hd' hc
      by_cases hkk : k = k'
      · subst hkk; rw [upd_self] at hk'; cases hk'; rw [hv.1] at hr'; cases hr'
      · rw [upd_ne _ _ hkk, upd_ne _ _ (fun h => hne' h.symm)] at hk'
        exact hkk (h.unique k n0 k' n' hk hk' hr0 hr' (by simp [hst0]) hd' (by rw [hc]; simp only [hpm, hpx])))
  have he : upd (upd (upd f x (some { m' with state := .down })) k (some v)) x (some m') =
      upd (upd f x (some m')) k (some v) := by
    funext y
    simp only [upd]
    by_cases h1 : x = y
    · subst h1; simp [show ¬ k = x from fun h => hne h.symm]
    · simp [h1]
  rw [← he]; exact g3

/-! ### Clearing the slaves of a preparing partition -/

theorem mfind_clearSlaves (l : List (NodeKey × Int)) : ∀ (nodes : NodeMap)
    (_ : ∀ e ∈ l, ∃ n, mfind nodes e.1 = some n) (x : NodeKey),
    mfind (clearSlaves nodes l) x =
      if x ∈ l.map (·.1) then (mfind nodes x).map (fun n => { n.clear with state := .active })
      else mfind nodes x := by
  induction l with
  | nil => intro nodes _ x; simp [clearSlaves]
  | cons e l ih =>
    intro nodes h x
    obtain ⟨n, hn⟩ := h e (by simp)
    have hstep : clearSlaves nodes (e :: l) =
        clearSlaves (nmodify nodes e.1 fun n => { n.clear with state := .active }) l := rfl
    have hm := mfind_nmodify nodes e.1 (fun n => { n.clear with state := .active }) n hn
    rw [hstep, ih]
    · rw [hm]
      by_cases hx : e.1 = x
      · subst hx
        simp only [upd_self, List.map_cons, List.mem_cons, true_or, if_true, hn, Option.map_some]
        split <;> rfl
      · have hx' : ¬ x = e.1 := fun h => hx h.symm
        simp only [upd_ne _ _ hx, List.map_cons, List.mem_cons, hx', false_or]
    · intro e' he'
      rw [hm]
      by_cases hx : e.1 = e'.1
      · exact ⟨_, by rw [← hx, upd_self]⟩
      · rw [upd_ne _ _ hx]; exact h e' (by simp [he'])

theorem Good.clearSlaves {N : Nat} (l : List (NodeKey × Int)) : ∀ (nodes : NodeMap),
    Good N (mfind nodes) → (∀ e ∈ l, ∃ n, mfind nodes e.1 = some n ∧ n.role ≠ .master) →
    Good N (mfind (Flare.clearSlaves nodes l)) := by
  induction l with
  | nil => intro nodes h _; exact h
  | cons e l ih =>
    intro nodes h hl
    obtain ⟨n, hn, hr⟩ := hl e (by simp)
    have hstep : Flare.clearSlaves nodes (e :: l) =
        Flare.clearSlaves (nmodify nodes e.1 fun n => { n.clear with state := .active }) l := rfl
    have hm := mfind_nmodify nodes e.1 (fun n => { n.clear with state := .active }) n hn
    rw [hstep]
    apply ih
    · rw [hm]
      apply h.set_proxy
      · intro n0 h0; rw [hn] at h0; cases h0; exact hr
      · intro m hm'; cases hm'; exact ⟨rfl, rfl, rfl, Or.inl rfl⟩
    · intro e' he'
      rw [hm]
      by_cases hx : e.1 = e'.1
      · exact ⟨_, by rw [← hx, upd_self], by simp [Node.clear]⟩
      · rw [upd_ne _ _ hx]; exact hl e' (by simp [he'])

theorem nmodify_sorted (m : NodeMap) (k : NodeKey) (g : Node → Node) (h : Sorted m) :
    Sorted (nmodify m k g) := mset_sorted m k _ h

theorem clearSlaves_sorted (l : List (NodeKey × Int)) : ∀ nodes : NodeMap, Sorted nodes →
    Sorted (Flare.clearSlaves nodes l) := by
  induction l with
  | nil => intro nodes h; exact h
  | cons e l ih =>
    intro nodes h
    exact ih _ (nmodify_sorted nodes e.1 _ h)

theorem ntouch_some (m : NodeMap) (k : NodeKey) (n : Node) (h : mfind m k = some n) : ntouch m k = m := by
  simp [ntouch, h]

theorem mem_slavesOf {nodes : NodeMap} (hs : Sorted nodes) {p : Int} {k : NodeKey} {b : Int} :
    (k, b) ∈ slavesOf nodes p ↔ ∃ n, mfind nodes k = some n ∧ n.role = .slave ∧ n.state ≠ .down ∧
      n.partition = p ∧ b = if n.state = .active then n.balance else 0 := by
  simp only [slavesOf, List.mem_map, List.mem_filter, Bool.and_eq_true, decide_eq_true_eq, Prod.mk.injEq]
  constructor
  · rintro ⟨e, ⟨he, h1⟩, rfl, rfl⟩
    exact ⟨e.2, (mem_iff_mfind nodes hs _ _).1 he, h1.1.1, h1.1.2, h1.2, rfl⟩
  · rintro ⟨n, hn, h1, h2, h3, rfl⟩
    exact ⟨(k, n), ⟨(mem_iff_mfind nodes hs _ _).2 hn, ⟨h1, h2⟩, h3⟩, rfl, rfl⟩

end Flare
