import Verif.Spec.Routing
import Verif.Lemmas.ClusterTables
import Verif.Props.KeyResolver
import Verif.Props.Cluster

/-! Lemmas about routing. -/
namespace Flare

theorem mem_activeMasters {nodes : NodeMap} (hs : Sorted nodes) (p : Int) (k : NodeKey) (n : Node) :
    (k, n) ∈ activeMasters nodes p ↔ mfind nodes k = some n ∧ n.role = .master ∧ n.state = .active ∧
      n.partition = p := by
  simp [activeMasters, mem_iff_mfind nodes hs, and_assoc]

theorem mem_preparingMasters {nodes : NodeMap} (hs : Sorted nodes) (p : Int) (k : NodeKey) (n : Node) :
    (k, n) ∈ preparingMasters nodes p ↔ mfind nodes k = some n ∧ n.role = .master ∧
      (n.state = .prepare ∨ n.state = .ready) ∧ n.partition = p := by
  simp [preparingMasters, mem_iff_mfind nodes hs, and_assoc]

theorem mem_slaveKeys {nodes : NodeMap} (hs : Sorted nodes) (p : Int) (k : NodeKey) :
    k ∈ (slavesOf nodes p).map (·.1) ↔ Follows nodes p k := by
  simp only [List.mem_map, Prod.exists, exists_and_right, exists_eq_right, Follows]
  constructor
  · rintro ⟨b, h⟩
    obtain ⟨n, h1, h2, h3, h4, -⟩ := (mem_slavesOf hs).1 h
    exact ⟨n, h1, h2, h3, h4⟩
  · rintro ⟨n, h1, h2, h3, h4⟩
    exact ⟨_, (mem_slavesOf hs).2 ⟨n, h1, h2, h3, h4, rfl⟩⟩

theorem slaveKeys_nodup {nodes : NodeMap} (hs : Sorted nodes) (p : Int) : ((slavesOf nodes p).map (·.1)).Nodup := by
  simp only [slavesOf, List.map_map]
  have : (nodes.filter fun e => e.2.role = .slave && e.2.state ≠ .down && e.2.partition = p).map
      ((fun x => x.1) ∘ fun e : NodeKey × Node => (e.1, if e.2.state = .active then e.2.balance else 0)) =
      (nodes.filter fun e => e.2.role = .slave && e.2.state ≠ .down && e.2.partition = p).map (·.1) := rfl
  rw [this]
  have hn : (nodes.map (·.1)).Nodup := List.Pairwise.imp (fun h => Nat.ne_of_lt h) hs
  exact List.Nodup.sublist (List.filter_sublist.map _) hn

section
variable {near : NodeKey → Bool} {N : Nat} {v : View} {kr : Resolver} {h : Int} {p : Nat}

theorem GoodView.npm_length (g : GoodView near N v) : v.npm.length = N := by
  apply length_of_keys v.npm g.tables.keys
  intro p
  have := g.tables.main p
  rw [← g.good.exists_range g.sorted p]
  have hn := mfind_none_iff v.npm p
  by_cases he : exists_ v.nodes p = true
  · rw [this, if_pos he] at hn
    simp only [he, iff_true]
    exact Classical.byContradiction fun hc => by simpa using hn.2 hc
  · rw [this, if_neg he] at hn
    simp only [he, Bool.false_eq_true, iff_false]
    exact hn.1 rfl

theorem GoodView.nppm_length (g : GoodView near N v) :
    ((∃ k, Prepares v.nodes k) → v.nppm.length = 1) ∧ ((¬ ∃ k, Prepares v.nodes k) → v.nppm.length = 0) := by
  have hk : ∀ p : Int, p ∈ v.nppm.map (·.1) ↔ preparing v.nodes p = true := by
    intro p
    have := g.tables.prep p
    have hn := mfind_none_iff v.nppm p
    by_cases he : preparing v.nodes p = true
    · rw [this, if_pos he] at hn
      simp only [he, iff_true]
      exact Classical.byContradiction fun hc => by simpa using hn.2 hc
    · rw [this, if_neg he] at hn
      simp only [he, Bool.false_eq_true, iff_false]
      exact hn.1 rfl
  have hN : ∀ p : Int, p ∈ v.nppm.map (·.1) → p = N := fun p hp =>
    g.good.preparing_eq g.sorted p ((hk p).1 hp)
  constructor
  · rintro ⟨k, n, h1, h2, h3⟩
    have hp : n.partition = N := (g.good.master k n h1 h2).2.2.2 h3
    have hm : (N : Int) ∈ v.nppm.map (·.1) := (hk N).2 ((preparing_iff g.sorted N).2 ⟨k, n, h1, h2, h3, hp⟩)
    have hnd := g.tables.prepKeys
    rw [← List.length_map (f := (·.1)) (as := v.nppm)]
    generalize v.nppm.map (·.1) = l at *
    match l, hm, hN, hnd with
    | [a], _, _, _ => rfl
    | a :: b :: l, _, hN, hnd =>
      have h1 := hN a (by simp)
      have h2 := hN b (by simp)
      simp [h1, h2] at hnd
  · intro hno
    cases he : v.nppm with
    | nil => rfl
    | cons e l =>
      exfalso
      have hm : e.1 ∈ v.nppm.map (·.1) := by simp [he]
      obtain ⟨k, n, h1, h2, h3, -⟩ := (preparing_iff g.sorted e.1).1 ((hk _).1 hm)
      exact hno ⟨k, n, h1, h2, h3⟩

theorem GoodView.leads_head (g : GoodView near N v) (p : Int) (k : NodeKey) :
    (activeMasters v.nodes p).head?.map (·.1) = some k ↔ Leads v.nodes p k := by
  constructor
  · intro h
    cases hl : activeMasters v.nodes p with
    | nil => simp [hl] at h
    | cons e l =>
      obtain ⟨k', n⟩ := e
      simp only [hl, List.head?_cons, Option.map_some, Option.some.injEq] at h
      subst h
      obtain ⟨h1, h2, h3, h4⟩ := (mem_activeMasters g.sorted p k' n).1 (by simp [hl])
      exact ⟨n, h1, h2, h3, h4⟩
  · rintro ⟨n, h1, h2, h3, h4⟩
    have hm := (mem_activeMasters g.sorted p k n).2 ⟨h1, h2, h3, h4⟩
    cases hl : activeMasters v.nodes p with
    | nil => simp [hl] at hm
    | cons e l =>
      obtain ⟨k', n'⟩ := e
      obtain ⟨g1, g2, g3, g4⟩ := (mem_activeMasters g.sorted p k' n').1 (by simp [hl])
      have := g.good.unique k' n' k n g1 h1 g2 h2 (by simp [g3]) (by simp [h3]) (by rw [g4, h4])
      simp [this]

theorem GoodView.prepares_head (g : GoodView near N v) (k : NodeKey) :
    (preparingMasters v.nodes N).head?.map (·.1) = some k ↔ Prepares v.nodes k := by
  constructor
  · intro h
    cases hl : preparingMasters v.nodes N with
    | nil => simp [hl] at h
    | cons e l =>
      obtain ⟨k', n⟩ := e
      simp only [hl, List.head?_cons, Option.map_some, Option.some.injEq] at h
      subst h
      obtain ⟨h1, h2, h3, h4⟩ := (mem_preparingMasters g.sorted N k' n).1 (by simp [hl])
      exact ⟨n, h1, h2, h3⟩
  · rintro ⟨n, h1, h2, h3⟩
    have h4 := (g.good.master k n h1 h2).2.2.2 h3
    have hm := (mem_preparingMasters g.sorted N k n).2 ⟨h1, h2, h3, h4⟩
    cases hl : preparingMasters v.nodes N with
    | nil => simp [hl] at hm
    | cons e l =>
      obtain ⟨k', n'⟩ := e
      obtain ⟨g1, g2, g3, g4⟩ := (mem_preparingMasters g.sorted N k' n').1 (by simp [hl])
      have := g.good.unique k' n' k n g1 h1 g2 h2 (by rcases g3 with g3 | g3 <;> simp [g3])
        (by rcases h3 with g3 | g3 <;> simp [g3]) (by rw [g4, h4])
      simp [this]

theorem GoodView.index_main (g : GoodView near N v) (p : Int) (near' : NodeKey → Bool) (k : NodeKey) :
    k ∈ (mkPart near' (activeMasters v.nodes p) (slavesOf v.nodes p)).index ↔ Leads v.nodes p k ∨ Follows v.nodes p k := by
  simp only [mkPart, List.mem_append, mem_slaveKeys g.sorted]
  have : k ∈ (activeMasters v.nodes p).map (·.1) ↔ Leads v.nodes p k := by
    simp only [List.mem_map, Prod.exists, exists_and_right, exists_eq_right, mem_activeMasters g.sorted, Leads]
  rw [this]

theorem GoodView.index_prep (g : GoodView near N v) (near' : NodeKey → Bool) (k : NodeKey) :
    k ∈ (mkPart near' (preparingMasters v.nodes N) (slavesOf v.nodes N)).index ↔
      Prepares v.nodes k ∨ Follows v.nodes N k := by
  simp only [mkPart, List.mem_append, mem_slaveKeys g.sorted]
  have : k ∈ (preparingMasters v.nodes N).map (·.1) ↔ Prepares v.nodes k := by
    simp only [List.mem_map, Prod.exists, exists_and_right, exists_eq_right, mem_preparingMasters g.sorted, Prepares]
    constructor
    · rintro ⟨n, h1, h2, h3, -⟩; exact ⟨n, h1, h2, h3⟩
    · rintro ⟨n, h1, h2, h3⟩; exact ⟨n, h1, h2, h3, (g.good.master k n h1 h2).2.2.2 h3⟩
  rw [this]

theorem GoodView.determine_main (g : GoodView near N v) (hp : resolve kr h N = some p) (hlt : p < N) :
    determine kr v h false = .found (mkPart near (activeMasters v.nodes p) (slavesOf v.nodes p)) false := by
  have hl := g.npm_length
  have he : exists_ v.nodes p = true := (g.good.exists_range g.sorted p).2 (by omega)
  have hm := g.tables.main p
  rw [if_pos he] at hm
  simp only [determine, hl, show ¬ N = 0 by omega, if_false, Bool.false_eq_true, hp]
  rw [hm]

theorem GoodView.exists_N (g : GoodView near N v) : exists_ v.nodes N = false := by
  have := g.good.exists_range g.sorted N
  cases he : exists_ v.nodes N with
  | false => rfl
  | true => have := this.1 he; omega

theorem GoodView.determinePrep_eq (g : GoodView near N v) (hr : Routable kr N h) (hN : 1 ≤ N) :
    (Moving kr N v.nodes h → determinePrep kr v h =
      some (some (mkPart (fun _ => false) (preparingMasters v.nodes N) (slavesOf v.nodes N)))) ∧
    (¬ Moving kr N v.nodes h → determinePrep kr v h = some none) := by
  have hl := g.npm_length
  obtain ⟨l1, l0⟩ := g.nppm_length
  by_cases hp : ∃ k, Prepares v.nodes k
  · have hl1 := l1 hp
    have hpr : preparing v.nodes N = true := by
      obtain ⟨k, n, h1, h2, h3⟩ := hp
      exact (preparing_iff g.sorted N).2 ⟨k, n, h1, h2, h3, (g.good.master k n h1 h2).2.2.2 h3⟩
    have hN' := g.tables.prep N
    rw [if_pos hpr, g.exists_N] at hN'
    obtain ⟨q, hq, hqlt⟩ := C18_in_range hr.hint hr.virt (n := N + 1) (by omega) hr.size hr.hash
    simp only [Moving, hp, true_and, hq, Option.some.injEq]
    by_cases hqN : q = N
    · subst hqN
      simp only [determinePrep, determine, hl, hl1, show ¬ q = 0 by omega, if_false, if_true, hq, hN']
      simp
    · have hnone : mfind v.nppm (q : Int) = none := by
        rw [g.tables.prep q, if_neg]
        intro hc
        have := g.good.preparing_eq g.sorted _ hc
        omega
      have he : exists_ v.nodes q = true := (g.good.exists_range g.sorted q).2 (by omega)
      have hm := g.tables.main q
      rw [if_pos he] at hm
      simp only [hqN, determinePrep, determine, hl, hl1, show ¬ N = 0 by omega, if_false, if_true, hq, hnone, hm]
      simp
  · have hl0 := l0 hp
    have hnil : v.nppm = [] := List.length_eq_zero_iff.1 hl0
    obtain ⟨q, hq, hqlt⟩ := C18_in_range hr.hint hr.virt hN (by have := hr.size; omega) hr.hash
    have he : exists_ v.nodes q = true := (g.good.exists_range g.sorted q).2 (by omega)
    have hm := g.tables.main q
    rw [if_pos he] at hm
    simp only [Moving, hp, false_and, false_imp_iff, not_false_eq_true, true_imp_iff, true_and, determinePrep,
      determine, hl, hnil, List.length_nil, Nat.add_zero, show ¬ N = 0 by omega, if_false, if_true, hq, mfind, hm]

end

/-! ### Views that come from an index server -/

theorem sent_good (as : List IAct) : ∀ (fresh : Bool) (N : Nat) (s : Index), IxInv fresh N s → Orderly fresh s as →
    ∀ m ∈ sent s as, ∃ M, Sorted m.nodes ∧ Good M (mfind m.nodes) := by
  induction as with
  | nil => intro _ _ _ _ _ m hm; simp [sent] at hm
  | cons a as ih =>
    intro fresh N s h ho m hm
    cases a with
    | cmd env c =>
      obtain ⟨rfl, hsafe, ho⟩ := ho
      obtain ⟨N', -, h'⟩ := (step_result h env c hsafe).inv h
      simp only [sent, List.mem_append] at hm
      rcases hm with hm | hm
      · split at hm
        · simp at hm
        · rw [List.mem_singleton] at hm
          subst hm
          exact ⟨N', h'.map.sorted, h'.map.good⟩
      · exact ih _ N' _ h' ho m hm
    | update env =>
      obtain ⟨N', h'⟩ := update_inv h env
      exact ih _ N' _ h' ho m hm
    | restart =>
      obtain ⟨s', N', h1, h2, -⟩ := startup_inv h.oldSaved
      have : ixAct s .restart = s' := by simp only [ixAct, h1, Option.getD_some]
      have ho' : Orderly true (ixAct s .restart) as := ho
      simp only [sent] at hm
      rw [this] at ho' hm
      exact ih _ N' _ h2 ho' m hm

theorem receive_good (near : NodeKey → Bool) (me : NodeKey) (s : View) (m : NodeMsg) (M : Nat)
    (hs : Sorted m.nodes) (hg : Good M (mfind m.nodes)) (h : s.version ≤ m.version) :
    GoodView near M (receive near me s m).1 := by
  have hb := build_sorted _ hs
  have e := (receive_accept near me s m h).1
  have d := C25_node_tables near me s m M h (by rw [hb]; exact hg)
  rw [hb] at e
  exact ⟨by rw [e]; exact hs, by rw [e]; exact hg, d⟩

theorem receiveAll_good (near : NodeKey → Bool) (me : NodeKey) (ms : List NodeMsg)
    (h : ∀ m ∈ ms, ∃ M, Sorted m.nodes ∧ Good M (mfind m.nodes)) : ∀ (s : View),
    (s = .init ∨ ∃ M, GoodView near M s) → ms ≠ [] ∨ (∃ M, GoodView near M s) →
    ∃ M, GoodView near M (receiveAll near me s ms) := by
  induction ms with
  | nil =>
    intro s _ h2
    rcases h2 with h2 | h2
    · exact absurd rfl h2
    · exact h2
  | cons m ms ih =>
    intro s h1 _
    have hrun : receiveAll near me s (m :: ms) = receiveAll near me (receive near me s m).1 ms := rfl
    rw [hrun]
    by_cases hlt : m.version < s.version
    · rw [receive_refuse near me s m hlt]
      have hg : ∃ M, GoodView near M s := by
        rcases h1 with rfl | h1
        · simp [View.init] at hlt
        · exact h1
      exact ih (fun m hm => h m (by simp [hm])) s h1 (.inr hg)
    · obtain ⟨M, e1, e2⟩ := h m (by simp)
      have hg := receive_good near me s m M e1 e2 (by omega)
      exact ih (fun m hm => h m (by simp [hm])) _ (.inr ⟨M, hg⟩) (.inr ⟨M, hg⟩)

end Flare
