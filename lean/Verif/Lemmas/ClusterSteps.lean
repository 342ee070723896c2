import Verif.Lemmas.ClusterGood

set_option linter.unusedSimpArgs false

namespace Flare

/-! ### Choosing the slave to promote -/

def isActive (nodes : NodeMap) (k : NodeKey) : Prop := ∃ n, mfind nodes k = some n ∧ n.state = .active

/-- `(f, b)` is the first of the active entries of `l` with the largest balance. -/
def FirstBest (nodes : NodeMap) (l : List (NodeKey × Int)) (f : NodeKey) (b : Int) : Prop :=
  ∃ l1 l2, l = l1 ++ (f, b) :: l2 ∧ isActive nodes f ∧
    (∀ e ∈ l1, isActive nodes e.1 → e.2 < b) ∧ (∀ e ∈ l2, isActive nodes e.1 → e.2 ≤ b)

theorem pickSlave_some (nodes : NodeMap) (l : List (NodeKey × Int)) : ∀ (k0 : NodeKey) (b0 sum : Int),
    (∀ e ∈ l, ∃ n, mfind nodes e.1 = some n) →
    ∃ f, pickSlave nodes l (some (k0, b0)) sum = (some f, sum + (l.map (·.2)).sum, nodes) ∧
      ((f = k0 ∧ ∀ e ∈ l, isActive nodes e.1 → e.2 ≤ b0) ∨ ∃ b, b0 < b ∧ FirstBest nodes l f b) := by
  induction l with
  | nil => intro k0 b0 sum _; exact ⟨k0, by simp [pickSlave], Or.inl ⟨rfl, by simp⟩⟩
  | cons e l ih =>
    intro k0 b0 sum h
    obtain ⟨k, b⟩ := e
    obtain ⟨n, hn⟩ := h (k, b) (by simp)
    have h' : ∀ e ∈ l, ∃ n, mfind nodes e.1 = some n := fun e he => h e (by simp [he])
    simp only at hn
    simp only [pickSlave, ntouch_some nodes k n hn, nget, hn, Option.getD_some]
    by_cases ha : n.state = .active
    · by_cases hb : b0 < b
      · simp only [ha, if_true, hb]
        obtain ⟨f, h1, h2⟩ := ih k b (sum + b) h'
        refine ⟨f, by rw [h1]; simp [Int.add_assoc], Or.inr ?_⟩
        rcases h2 with ⟨rfl, h2⟩ | ⟨b', hb', l1, l2, h2, h3, h4, h5⟩
        · exact ⟨b, hb, [], l, rfl, ⟨n, hn, ha⟩, by simp, h2⟩
        · refine ⟨b', by omega, (k, b) :: l1, l2, by rw [h2]; rfl, h3, ?_, h5⟩
          intro e he hea
          simp only [List.mem_cons] at he
          rcases he with rfl | he
          · exact hb'
          · exact h4 e he hea
      · simp only [ha, if_true, hb, if_false]
        obtain ⟨f, h1, h2⟩ := ih k0 b0 (sum + b) h'
        refine ⟨f, by rw [h1]; simp [Int.add_assoc], ?_⟩
        rcases h2 with ⟨rfl, h2⟩ | ⟨b', hb', l1, l2, h2, h3, h4, h5⟩
        · refine Or.inl ⟨rfl, ?_⟩
          intro e he hea
          simp only [List.mem_cons] at he
          rcases he with rfl | he
          · simp only; omega
          · exact h2 e he hea
        · refine Or.inr ⟨b', hb', (k, b) :: l1, l2, by rw [h2]; rfl, h3, ?_, h5⟩
          intro e he hea
          simp only [List.mem_cons] at he
          rcases he with rfl | he
          · simp only; omega
          · exact h4 e he hea
    · simp only [ha, if_false]
      obtain ⟨f, h1, h2⟩ := ih k0 b0 (sum + b) h'
      have hna : ¬ isActive nodes k := by
        rintro ⟨m, hm, hs⟩; rw [hn] at hm; cases hm; exact ha hs
      refine ⟨f, by rw [h1]; simp [Int.add_assoc], ?_⟩
      rcases h2 with ⟨rfl, h2⟩ | ⟨b', hb', l1, l2, h2, h3, h4, h5⟩
      · refine Or.inl ⟨rfl, ?_⟩
        intro e he hea
        simp only [List.mem_cons] at he
        rcases he with rfl | he
        · exact absurd hea hna
        · exact h2 e he hea
      · refine Or.inr ⟨b', hb', (k, b) :: l1, l2, by rw [h2]; rfl, h3, ?_, h5⟩
        intro e he hea
        simp only [List.mem_cons] at he
        rcases he with rfl | he
        · exact absurd hea hna
        · exact h4 e he hea

theorem pickSlave_none (nodes : NodeMap) (l : List (NodeKey × Int)) : ∀ (sum : Int),
    (∀ e ∈ l, ∃ n, mfind nodes e.1 = some n) →
    (pickSlave nodes l none sum = (none, sum + (l.map (·.2)).sum, nodes) ∧ ∀ e ∈ l, ¬ isActive nodes e.1) ∨
    ∃ f b, pickSlave nodes l none sum = (some f, sum + (l.map (·.2)).sum, nodes) ∧
      FirstBest nodes l f b := by
  induction l with
  | nil => intro sum _; left; simp [pickSlave]
  | cons e l ih =>
    intro sum h
    obtain ⟨k, b⟩ := e
    obtain ⟨n, hn⟩ := h (k, b) (by simp)
    have h' : ∀ e ∈ l, ∃ n, mfind nodes e.1 = some n := fun e he => h e (by simp [he])
    simp only at hn
    simp only [pickSlave, ntouch_some nodes k n hn, nget, hn, Option.getD_some]
    by_cases ha : n.state = .active
    · simp only [ha, if_true]
      obtain ⟨f, h1, h2⟩ := pickSlave_some nodes l k b (sum + b) h'
      right
      rcases h2 with ⟨rfl, h2⟩ | ⟨b', hb', l1, l2, h2, h3, h4, h5⟩
      · exact ⟨f, b, by rw [h1]; simp [Int.add_assoc], [], l, rfl, ⟨n, hn, ha⟩, by simp, h2⟩
      · refine ⟨f, b', by rw [h1]; simp [Int.add_assoc], (k, b) :: l1, l2, by rw [h2]; rfl, h3, ?_, h5⟩
        intro e he hea
        simp only [List.mem_cons] at he
        rcases he with rfl | he
        · exact hb'
        · exact h4 e he hea
    · simp only [ha, if_false]
      have hna : ¬ isActive nodes k := by
        rintro ⟨m, hm, hs⟩; rw [hn] at hm; cases hm; exact ha hs
      rcases ih (sum + b) h' with ⟨h1, h2⟩ | ⟨f, b', h1, l1, l2, h2, h3, h4, h5⟩
      · left
        refine ⟨by rw [h1]; simp [Int.add_assoc], ?_⟩
        intro e he
        simp only [List.mem_cons] at he
        rcases he with rfl | he
        · exact hna
        · exact h2 e he
      · right
        refine ⟨f, b', by rw [h1]; simp [Int.add_assoc], (k, b) :: l1, l2, by rw [h2]; rfl, h3, ?_, h5⟩
        intro e he hea
        simp only [List.mem_cons] at he
        rcases he with rfl | he
        · exact absurd hea hna
        · exact h4 e he hea

/-! ### The invariant -/

/-- A node map and thread type counter as every reachable state has them. -/
structure MapOk (N : Nat) (nodes : NodeMap) (tt : Int) : Prop where
  sorted : Sorted nodes
  good : Good N (mfind nodes)
  types : ∀ k n, mfind nodes k = some n → 16 ≤ n.threadType ∧ n.threadType < tt
  distinct : ∀ k n k' n', mfind nodes k = some n → mfind nodes k' = some n' →
    n.threadType = n'.threadType → k = k'
  counter : 16 ≤ tt

/-- The tables are the ones computed from the node map. -/
def TablesOk (s : Index) : Prop :=
  reconstruct (fun _ => false) s.nodes = some ⟨s.npm, s.nppm, true⟩

structure IxInv (fresh : Bool) (N : Nat) (s : Index) : Prop where
  map : MapOk N s.nodes s.threadType
  tables : TablesOk s
  saved : ∀ v nm tt, s.saved = some (v, nm, tt) → (∃ M, MapOk M nm tt) ∧
    (fresh = true → v = s.version ∧ nm = s.nodes ∧ tt = s.threadType)

theorem MapOk.loads {N : Nat} {nodes : NodeMap} {tt : Int} (h : MapOk N nodes tt) :
    (nodes.all fun e => e.2.threadType < tt) = true := by
  rw [List.all_eq_true]
  intro e he
  simp only [decide_eq_true_eq]
  exact (h.types e.1 e.2 ((mem_iff_mfind nodes h.sorted _ _).1 he)).2

theorem IxInv.load {N : Nat} {s : Index} (h : IxInv true N s) (env : IEnv) :
    Flare.load env s = (s, env.loadOk) := by
  simp only [Flare.load]
  cases env.loadOk
  · rfl
  · simp only [if_true]
    cases hs : s.saved with
    | none => simp only [h.map.loads]
    | some q =>
      obtain ⟨v, nm, tt⟩ := q
      obtain ⟨rfl, rfl, rfl⟩ := (h.saved v nm tt hs).2 rfl
      simp only [h.map.loads]
      rw [← hs]

theorem IxInv.withLoad {N : Nat} {s : Index} (h : IxInv true N s) (env : IEnv)
    (f : Index → Index × Int) :
    withLoad env s f = if env.beginOk ∧ env.loadOk then f s else (s, -1) := by
  simp only [Flare.withLoad, h.load]
  cases env.beginOk <;> cases env.loadOk <;> simp

theorem install_ok {N : Nat} {s : Index} (h : MapOk N s.nodes s.threadType) :
    TablesOk (install s) ∧ (install s).nodes = s.nodes ∧ (install s).threadType = s.threadType ∧
      (install s).saved = s.saved ∧ (install s).version = s.version := by
  obtain ⟨t, ht, hok, -, -⟩ := h.good.reconstruct (fun _ => false) h.sorted
  simp only [install, ht]
  refine ⟨?_, trivial, trivial, trivial, trivial⟩
  simp only [TablesOk, ht]
  cases t; simp_all

theorem save_inv {N : Nat} {s : Index} (h : MapOk N s.nodes s.threadType) (ht : TablesOk s)
    (hsv : ∀ v nm tt, s.saved = some (v, nm, tt) → ∃ M, MapOk M nm tt) (env : IEnv) :
    IxInv env.storeOk N (save env s).1 := by
  simp only [save]
  cases hst : env.storeOk
  · exact ⟨h, ht, fun v nm tt hv => ⟨hsv v nm tt hv, by simp⟩⟩
  · refine ⟨h, ht, ?_⟩
    intro v nm tt hv
    simp only [if_true, Option.some.injEq, Prod.mk.injEq] at hv
    obtain ⟨rfl, rfl, rfl⟩ := hv
    exact ⟨⟨N, h⟩, fun _ => ⟨rfl, rfl, rfl⟩⟩

theorem store_eq (env : IEnv) (s : Index) :
    store env s = ((save env s).1, if env.storeOk then 0 else -1) := by
  simp only [store]
  obtain ⟨a, b, h⟩ : ∃ a b, save env s = (a, b) := ⟨_, _, rfl⟩
  have hb : b = env.storeOk := by
    have h' : (save env s).2 = b := by rw [h]
    rw [← h']; simp only [save]; cases env.storeOk <;> rfl
  rw [h, hb]; cases env.storeOk <;> rfl

theorem finish_eq (env : IEnv) (s : Index) :
    finish env s = ((save env (install s)).1, if env.storeOk then 0 else -1) := store_eq env (install s)

theorem finish_inv {N : Nat} {s : Index} (h : MapOk N s.nodes s.threadType)
    (hsv : ∀ v nm tt, s.saved = some (v, nm, tt) → ∃ M, MapOk M nm tt) (env : IEnv) :
    IxInv env.storeOk N (finish env s).1 := by
  obtain ⟨h1, h2, h3, h4, h5⟩ := install_ok h
  rw [finish_eq]
  exact save_inv (by rw [h2, h3]; exact h) h1 (by rw [h4]; exact hsv) env

/-! ### Keeping order and thread types -/

/-- Every surviving node keeps its thread type. -/
def KeepsTypes (f f' : NodeKey → Option Node) : Prop :=
  ∀ k n, f' k = some n → ∃ n0, f k = some n0 ∧ n0.threadType = n.threadType

theorem KeepsTypes.refl (f : NodeKey → Option Node) : KeepsTypes f f := fun _ n h => ⟨n, h, rfl⟩

theorem KeepsTypes.trans {f g h : NodeKey → Option Node} (h1 : KeepsTypes f g) (h2 : KeepsTypes g h) :
    KeepsTypes f h := by
  intro k n hk
  obtain ⟨n1, h3, h4⟩ := h2 k n hk
  obtain ⟨n0, h5, h6⟩ := h1 k n1 h3
  exact ⟨n0, h5, by rw [h6, h4]⟩

theorem KeepsTypes.upd {f : NodeKey → Option Node} {k : NodeKey} {n0 : Node} (h0 : f k = some n0)
    (v : Option Node) (hv : ∀ n, v = some n → n.threadType = n0.threadType) : KeepsTypes f (upd f k v) := by
  intro x n hx
  by_cases hk : k = x
  · subst hk; rw [upd_self] at hx; exact ⟨n0, h0, (hv n hx).symm⟩
  · rw [upd_ne _ _ hk] at hx; exact ⟨n, hx, rfl⟩

theorem KeepsTypes.clearSlaves (l : List (NodeKey × Int)) (nodes : NodeMap)
    (h : ∀ e ∈ l, ∃ n, mfind nodes e.1 = some n) :
    KeepsTypes (mfind nodes) (mfind (Flare.clearSlaves nodes l)) := by
  intro x n hx
  rw [mfind_clearSlaves l nodes h] at hx
  split at hx
  · cases hm : mfind nodes x with
    | none => simp [hm] at hx
    | some m => simp only [hm, Option.map_some, Option.some.injEq] at hx; exact ⟨m, rfl, by rw [← hx]; rfl⟩
  · exact ⟨n, hx, rfl⟩

theorem MapOk.of {N N' : Nat} {nodes nodes' : NodeMap} {tt : Int} (h : MapOk N nodes tt)
    (hs : Sorted nodes') (hg : Good N' (mfind nodes')) (hk : KeepsTypes (mfind nodes) (mfind nodes')) :
    MapOk N' nodes' tt := by
  refine ⟨hs, hg, ?_, ?_, h.counter⟩
  · intro k n hn
    obtain ⟨n0, h1, h2⟩ := hk k n hn
    rw [← h2]; exact h.types k n0 h1
  · intro k n k' n' hn hn' ht
    obtain ⟨n0, h1, h2⟩ := hk k n hn
    obtain ⟨n0', h1', h2'⟩ := hk k' n' hn'
    exact h.distinct k n0 k' n0' h1 h1' (by rw [h2, h2', ht])

/-- A node map changed at one known node. -/
theorem MapOk.modify {N N' : Nat} {nodes : NodeMap} {tt : Int} (h : MapOk N nodes tt) {k : NodeKey}
    {n0 : Node} (h0 : mfind nodes k = some n0) (g : Node → Node)
    (ht : (g n0).threadType = n0.threadType) (hg : Good N' (upd (mfind nodes) k (some (g n0)))) :
    MapOk N' (nmodify nodes k g) tt := by
  have he := mfind_nmodify nodes k g n0 h0
  refine h.of (nmodify_sorted nodes k g h.sorted) (by rw [he]; exact hg) ?_
  rw [he]
  exact KeepsTypes.upd h0 _ (by intro n hn; cases hn; exact ht)

theorem TablesOk.describes {N : Nat} {s : Index} (h : MapOk N s.nodes s.threadType) (ht : TablesOk s) :
    Describes (fun _ => false) s.nodes s.npm s.nppm ∧ s.npm.length = N := by
  obtain ⟨t, h1, -, h2, h3⟩ := h.good.reconstruct (fun _ => false) h.sorted
  simp only [TablesOk] at ht
  rw [ht] at h1; cases h1
  exact ⟨h2, h3⟩

theorem Describes.slaves {near : NodeKey → Bool} {nodes : NodeMap} {npm nppm : PMap}
    (h : Describes near nodes npm nppm) {p : Int} (hp : exists_ nodes p = true) :
    (pget npm p).slaves = slavesOf nodes p := by
  simp only [pget, h.main, hp, if_true, Option.getD_some, mkPart]

theorem Describes.prepSlaves {near : NodeKey → Bool} {nodes : NodeMap} {npm nppm : PMap}
    (h : Describes near nodes npm nppm) {p : Int} (hp : preparing nodes p = true)
    (he : exists_ nodes p = false) : (pget nppm p).slaves = slavesOf nodes p := by
  simp only [pget, h.prep, hp, he, if_true, Option.getD_some, mkPart, Bool.false_eq_true, if_false]

end Flare
