import Verif.Lemmas.ClusterMap
import Mathlib.Data.List.Induction

set_option linter.unusedSimpArgs false

namespace Flare

theorem pget_eq (m : PMap) (p : Int) : pget m p = (mfind m p).getD Part.empty := rfl

theorem mfind_ptouch (m : PMap) (p q : Int) :
    mfind (ptouch m p) q = if p = q then some (pget m p) else mfind m q := mfind_pset m p _ q

theorem ptouch_nodup (m : PMap) (p : Int) (h : (m.map (·.1)).Nodup) : ((ptouch m p).map (·.1)).Nodup :=
  pset_nodup m p _ h

theorem pget_ptouch (m : PMap) (p q : Int) : pget (ptouch m p) q = pget m q := by
  simp only [pget, mfind_ptouch]
  by_cases h : p = q
  · subst h; simp [pget]
  · simp [h]

/-- At most one master of a partition is not down, and masters have a partition (in list form). -/
def MastersOk (l : NodeMap) : Prop :=
  (∀ e ∈ l, e.2.role = .master → 0 ≤ e.2.partition) ∧
  l.Pairwise fun a b => ¬ (a.2.role = .master ∧ b.2.role = .master ∧ a.2.state ≠ .down ∧
    b.2.state ≠ .down ∧ a.2.partition = b.2.partition)

structure AfterMasters (near : NodeKey → Bool) (l : NodeMap) (t : Tables) : Prop where
  ok : t.ok = true
  main : ∀ p, mfind t.npm p =
    if exists_ l p then some (mkPart near (activeMasters l p) []) else none
  prep : ∀ p, mfind t.nppm p =
    if preparing l p then some (mkPart (fun _ => false) (preparingMasters l p) []) else none
  keys : (t.npm.map (·.1)).Nodup
  prepKeys : (t.nppm.map (·.1)).Nodup

theorem mkPart_nil (near : NodeKey → Bool) : mkPart near [] [] = Part.empty := rfl

theorem exists_append (l : NodeMap) (k : NodeKey) (n : Node) (p : Int) :
    exists_ (l ++ [(k, n)]) p = (exists_ l p || (n.role = .master && (n.state = .active || n.state = .down)
      && n.partition = p)) := by
  simp [exists_, List.any_append]

theorem preparing_append (l : NodeMap) (k : NodeKey) (n : Node) (p : Int) :
    preparing (l ++ [(k, n)]) p = (preparing l p || (n.role = .master && (n.state = .prepare ||
      n.state = .ready) && n.partition = p)) := by
  simp [preparing, List.any_append]

theorem activeMasters_append (l : NodeMap) (k : NodeKey) (n : Node) (p : Int) :
    activeMasters (l ++ [(k, n)]) p = activeMasters l p ++
      (if n.role = .master ∧ n.state = .active ∧ n.partition = p then [(k, n)] else []) := by
  simp only [activeMasters, List.filter_append, List.filter_cons, List.filter_nil]
  congr 1
  by_cases h1 : n.role = .master <;> by_cases h2 : n.state = .active <;>
    by_cases h3 : n.partition = p <;> simp [h1, h2, h3]

theorem preparingMasters_append (l : NodeMap) (k : NodeKey) (n : Node) (p : Int) :
    preparingMasters (l ++ [(k, n)]) p = preparingMasters l p ++
      (if n.role = .master ∧ (n.state = .prepare ∨ n.state = .ready) ∧ n.partition = p
        then [(k, n)] else []) := by
  simp only [preparingMasters, List.filter_append, List.filter_cons, List.filter_nil]
  congr 1
  by_cases h1 : n.role = .master <;> by_cases h2 : n.state = .prepare <;>
    by_cases h4 : n.state = .ready <;> by_cases h3 : n.partition = p <;> simp [h1, h2, h3, h4]

theorem exists_of_active (l : NodeMap) (p : Int) (h : exists_ l p = false) : activeMasters l p = [] := by
  simp only [activeMasters, List.filter_eq_nil_iff]
  intro e he hc
  simp only [exists_, List.any_eq_false] at h
  have := h e he
  simp only [Bool.and_eq_true, decide_eq_true_eq, Bool.or_eq_true, not_and, not_or] at this hc
  exact (this ⟨hc.1.1, Or.inl hc.1.2⟩) hc.2

theorem preparing_of (l : NodeMap) (p : Int) (h : preparing l p = false) : preparingMasters l p = [] := by
  simp only [preparingMasters, List.filter_eq_nil_iff]
  intro e he hc
  simp only [preparing, List.any_eq_false] at h
  exact h e he hc

theorem AfterMasters.pget {near : NodeKey → Bool} {l : NodeMap} {t : Tables} (h : AfterMasters near l t)
    (p : Int) : pget t.npm p = mkPart near (activeMasters l p) [] := by
  simp only [Flare.pget, h.main]
  cases he : exists_ l p
  · rw [exists_of_active l p he]; rfl
  · rfl

theorem AfterMasters.pgetPrep {near : NodeKey → Bool} {l : NodeMap} {t : Tables}
    (h : AfterMasters near l t) (p : Int) :
    Flare.pget t.nppm p = mkPart (fun _ => false) (preparingMasters l p) [] := by
  simp only [Flare.pget, h.prep]
  cases he : preparing l p
  · rw [preparing_of l p he]; rfl
  · rfl

theorem afterMasters_step {near : NodeKey → Bool} {l : NodeMap} {t : Tables} (h : AfterMasters near l t)
    (k : NodeKey) (n : Node) (hp : n.role = .master → 0 ≤ n.partition)
    (hu : n.role = .master → (n.state = .active → activeMasters l n.partition = []) ∧
      (n.state = .prepare ∨ n.state = .ready → preparingMasters l n.partition = [])) :
    AfterMasters near (l ++ [(k, n)]) (passMaster near t (k, n)) := by
  by_cases hr : n.role = .master
  swap
  · have : passMaster near t (k, n) = t := by simp [passMaster, hr]
    rw [this]
    exact ⟨h.ok, by intro p; rw [h.main, exists_append, activeMasters_append]; simp [hr],
      by intro p; rw [h.prep, preparing_append, preparingMasters_append]; simp [hr], h.keys, h.prepKeys⟩
  have hp := hp hr
  have hneg : ¬ n.partition < 0 := by omega
  cases hs : n.state with
  | down =>
    have : passMaster near t (k, n) = { t with npm := ptouch t.npm n.partition } := by
      simp only [passMaster, hr, hs, ne_eq, not_true, if_false, if_true, true_and, hneg]
      split <;> rfl
    rw [this]
    refine ⟨h.ok, ?_, ?_, ptouch_nodup _ _ h.keys, h.prepKeys⟩
    · intro p
      simp only [mfind_ptouch, exists_append, activeMasters_append, hr, hs, h.pget, h.main]
      by_cases hpp : n.partition = p
      · subst hpp; simp
      · simp [hpp]
    · intro p; rw [h.prep, preparing_append, preparingMasters_append]; simp [hr, hs]
  | active =>
    have hnone : activeMasters l n.partition = [] := (hu hr).1 hs
    have hpart : Flare.pget t.npm n.partition = Part.empty := by rw [h.pget, hnone, mkPart_nil]
    simp only [passMaster, hr, hs, ne_eq, not_true, if_false, false_and, reduceCtorEq, hneg, pget_ptouch, hpart]
    simp only [Part.empty, not_true, if_false]
    refine ⟨h.ok, ?_, ?_, pset_nodup _ _ _ (ptouch_nodup _ _ h.keys), h.prepKeys⟩
    · intro p
      simp only [mfind_pset, mfind_ptouch, exists_append, activeMasters_append, hr, hs, h.main]
      by_cases hpp : n.partition = p
      · subst hpp
        by_cases hn : near k <;> simp [hnone, mkPart, hn]
      · simp [hpp]
    · intro p; rw [h.prep, preparing_append, preparingMasters_append]; simp [hr, hs]
  | prepare =>
    have hnone : preparingMasters l n.partition = [] := (hu hr).2 (by simp [hs])
    have hpart : Flare.pget t.nppm n.partition = Part.empty := by rw [h.pgetPrep, hnone, mkPart_nil]
    simp only [passMaster, hr, hs, ne_eq, not_true, if_false, false_and, reduceCtorEq, hneg, pget_ptouch, hpart]
    simp only [Part.empty, not_true, if_false]
    refine ⟨h.ok, ?_, ?_, h.keys, pset_nodup _ _ _ (ptouch_nodup _ _ h.prepKeys)⟩
    · intro p; rw [h.main, exists_append, activeMasters_append]; simp [hr, hs]
    · intro p
      simp only [mfind_pset, mfind_ptouch, preparing_append, preparingMasters_append, hr, hs, h.prep]
      by_cases hpp : n.partition = p
      · subst hpp; simp [hnone, mkPart]
      · simp [hpp]
  | ready =>
    have hnone : preparingMasters l n.partition = [] := (hu hr).2 (by simp [hs])
    have hpart : Flare.pget t.nppm n.partition = Part.empty := by rw [h.pgetPrep, hnone, mkPart_nil]
    simp only [passMaster, hr, hs, ne_eq, not_true, if_false, false_and, reduceCtorEq, hneg, pget_ptouch, hpart]
    simp only [Part.empty, not_true, if_false]
    refine ⟨h.ok, ?_, ?_, h.keys, pset_nodup _ _ _ (ptouch_nodup _ _ h.prepKeys)⟩
    · intro p; rw [h.main, exists_append, activeMasters_append]; simp [hr, hs]
    · intro p
      simp only [mfind_pset, mfind_ptouch, preparing_append, preparingMasters_append, hr, hs, h.prep]
      by_cases hpp : n.partition = p
      · subst hpp; simp [hnone, mkPart]
      · simp [hpp]

theorem afterMasters (near : NodeKey → Bool) (l : NodeMap) (h : MastersOk l) :
    AfterMasters near l (l.foldl (passMaster near) ⟨[], [], true⟩) := by
  induction l using List.reverseRecOn with
  | nil =>
    exact ⟨rfl, by intro p; simp [mfind, exists_], by intro p; simp [mfind, preparing], by simp, by simp⟩
  | append_singleton l e ih =>
    obtain ⟨k, n⟩ := e
    rw [List.foldl_append, List.foldl_cons, List.foldl_nil]
    obtain ⟨h1, h2⟩ := h
    rw [List.pairwise_append] at h2
    apply afterMasters_step
    · exact ih ⟨fun e he => h1 e (by simp [he]), h2.1⟩
    · exact h1 (k, n) (by simp)
    · intro hr
      refine ⟨fun hs => ?_, fun hs => ?_⟩
      · simp only [activeMasters, List.filter_eq_nil_iff]
        intro e he hc
        simp only [Bool.and_eq_true, decide_eq_true_eq] at hc
        exact h2.2.2 e he (k, n) (by simp) ⟨hc.1.1, hr, by simp [hc.1.2], by simp [hs], hc.2⟩
      · simp only [preparingMasters, List.filter_eq_nil_iff]
        intro e he hc
        simp only [Bool.and_eq_true, decide_eq_true_eq, Bool.or_eq_true] at hc
        refine h2.2.2 e he (k, n) (by simp) ⟨hc.1.1, hr, ?_, ?_, hc.2⟩
        · rcases hc.1.2 with h | h <;> simp [h]
        · rcases hs with h | h <;> simp [h]

structure AfterSlaves (near : NodeKey → Bool) (nodes l : NodeMap) (t : Tables) : Prop where
  ok : t.ok = true
  main : ∀ p, mfind t.npm p =
    if exists_ nodes p then some (mkPart near (activeMasters nodes p) (slavesOf l p)) else none
  prep : ∀ p, mfind t.nppm p =
    if preparing nodes p then some (mkPart (fun _ => false) (preparingMasters nodes p)
      (if exists_ nodes p then [] else slavesOf l p)) else none
  keys : (t.npm.map (·.1)).Nodup
  prepKeys : (t.nppm.map (·.1)).Nodup

theorem slavesOf_append (l : NodeMap) (k : NodeKey) (n : Node) (p : Int) :
    slavesOf (l ++ [(k, n)]) p = slavesOf l p ++
      (if n.role = .slave ∧ n.state ≠ .down ∧ n.partition = p then
        [(k, if n.state = .active then n.balance else 0)] else []) := by
  simp only [slavesOf, List.filter_append, List.filter_cons, List.filter_nil, List.map_append]
  congr 1
  by_cases h1 : n.role = .slave <;> by_cases h2 : n.state = .down <;>
    by_cases h3 : n.partition = p <;> simp [h1, h2, h3]

theorem mkPart_snoc (near : NodeKey → Bool) (ms : NodeMap) (ss : List (NodeKey × Int)) (k : NodeKey)
    (b : Int) : mkPart near ms (ss ++ [(k, b)]) =
      { mkPart near ms ss with
          slaves := (mkPart near ms ss).slaves ++ [(k, b)]
          balance := (mkPart near ms ss).balance ++ copies b k
          index := (mkPart near ms ss).index ++ [k]
          prior := if near k then (mkPart near ms ss).prior ++ copies b k else (mkPart near ms ss).prior } := by
  by_cases h : near k <;> simp [mkPart, h]

theorem mkPart_snoc' (ms : NodeMap) (ss : List (NodeKey × Int)) (k : NodeKey)
    (b : Int) : mkPart (fun _ => false) ms (ss ++ [(k, b)]) =
      { mkPart (fun _ => false) ms ss with
          slaves := (mkPart (fun _ => false) ms ss).slaves ++ [(k, b)]
          balance := (mkPart (fun _ => false) ms ss).balance ++ copies b k
          index := (mkPart (fun _ => false) ms ss).index ++ [k] } := by
  simp [mkPart]

theorem afterSlaves_step {near : NodeKey → Bool} {nodes l : NodeMap} {t : Tables}
    (h : AfterSlaves near nodes l t) (k : NodeKey) (n : Node)
    (hp : n.role = .slave → n.state ≠ .down → 0 ≤ n.partition ∧
      (exists_ nodes n.partition = true ∨ preparing nodes n.partition = true)) :
    AfterSlaves near nodes (l ++ [(k, n)]) (passSlave near t (k, n)) := by
  by_cases hr : n.role = .slave
  swap
  · have : passSlave near t (k, n) = t := by simp [passSlave, hr]
    rw [this]
    exact ⟨h.ok, by intro p; rw [h.main, slavesOf_append]; simp [hr],
      by intro p; rw [h.prep, slavesOf_append]; simp [hr], h.keys, h.prepKeys⟩
  by_cases hs : n.state = .down
  · have : passSlave near t (k, n) = t := by simp [passSlave, hs]
    rw [this]
    exact ⟨h.ok, by intro p; rw [h.main, slavesOf_append]; simp [hs],
      by intro p; rw [h.prep, slavesOf_append]; simp [hs], h.keys, h.prepKeys⟩
  obtain ⟨hp, home⟩ := hp hr hs
  have hneg : ¬ n.partition < 0 := by omega
  simp only [passSlave, hr, hs, ne_eq, not_true, or_self, if_false, hneg, h.main]
  cases he : exists_ nodes n.partition with
  | true =>
    simp only [if_true]
    refine ⟨h.ok, ?_, ?_, pset_nodup _ _ _ h.keys, h.prepKeys⟩
    · intro p
      simp only [mfind_pset, slavesOf_append, hr, hs, h.main]
      by_cases hpp : n.partition = p
      · subst hpp
        simp only [he, if_true, ne_eq, not_false_eq_true, and_self]
        rw [if_pos (show True ∧ ¬ n.state = .down ∧ True from ⟨trivial, hs, trivial⟩), mkPart_snoc]
      · simp [hpp]
    · intro p
      rw [h.prep, slavesOf_append]
      by_cases hpp : n.partition = p
      · subst hpp; simp [he]
      · simp [hpp]
  | false =>
    have hprep : preparing nodes n.partition = true := by simpa [he] using home
    simp only [Bool.false_eq_true, if_false, h.prep, hprep, if_true, he]
    refine ⟨h.ok, ?_, ?_, h.keys, pset_nodup _ _ _ h.prepKeys⟩
    · intro p
      rw [h.main, slavesOf_append]
      by_cases hpp : n.partition = p
      · subst hpp; simp [he]
      · simp [hpp]
    · intro p
      simp only [mfind_pset, slavesOf_append, hr, hs, h.prep]
      by_cases hpp : n.partition = p
      · subst hpp
        simp only [he, hprep, if_true, ne_eq, not_false_eq_true, and_self, Bool.false_eq_true, if_false]
        rw [if_pos (show True ∧ ¬ n.state = .down ∧ True from ⟨trivial, hs, trivial⟩), mkPart_snoc']
      · simp [hpp]

theorem afterSlaves (near : NodeKey → Bool) (nodes : NodeMap) (t : Tables) (ht : AfterMasters near nodes t)
    (l : NodeMap) (hp : ∀ e ∈ l, e.2.role = .slave → e.2.state ≠ .down → 0 ≤ e.2.partition ∧
      (exists_ nodes e.2.partition = true ∨ preparing nodes e.2.partition = true)) :
    AfterSlaves near nodes l (l.foldl (passSlave near) t) := by
  induction l using List.reverseRecOn with
  | nil =>
    refine ⟨ht.ok, ht.main, ?_, ht.keys, ht.prepKeys⟩
    intro p
    simp only [List.foldl_nil]
    rw [ht.prep]
    have : slavesOf [] p = [] := rfl
    simp [this]
  | append_singleton l e ih =>
    obtain ⟨k, n⟩ := e
    rw [List.foldl_append, List.foldl_cons, List.foldl_nil]
    apply afterSlaves_step
    · exact ih (fun e he => hp e (by simp [he]))
    · exact hp (k, n) (by simp)

/-! ### Consistent node maps have tables -/

theorem Good.mastersOk {N : Nat} {nodes : NodeMap} (hs : Sorted nodes) (h : Good N (mfind nodes)) :
    MastersOk nodes := by
  refine ⟨?_, ?_⟩
  · intro e he hr
    exact (h.master e.1 e.2 ((mem_iff_mfind nodes hs e.1 e.2).1 he) hr).2.1
  · have hlt : nodes.Pairwise fun a b => a.1 < b.1 := by
      simpa [Sorted, List.pairwise_map] using hs
    refine List.Pairwise.imp_of_mem ?_ hlt
    intro a b ha hb hab hc
    have := h.unique a.1 a.2 b.1 b.2 ((mem_iff_mfind nodes hs _ _).1 ha) ((mem_iff_mfind nodes hs _ _).1 hb)
      hc.1 hc.2.1 hc.2.2.1 hc.2.2.2.1 hc.2.2.2.2
    exact Nat.ne_of_lt hab this

theorem exists_iff {nodes : NodeMap} (hs : Sorted nodes) (p : Int) : exists_ nodes p = true ↔
    ∃ k n, mfind nodes k = some n ∧ n.role = .master ∧ (n.state = .active ∨ n.state = .down) ∧
      n.partition = p := by
  simp only [exists_, List.any_eq_true, Bool.and_eq_true, decide_eq_true_eq, Bool.or_eq_true]
  constructor
  · rintro ⟨e, he, h⟩
    exact ⟨e.1, e.2, (mem_iff_mfind nodes hs _ _).1 he, h.1.1, h.1.2, h.2⟩
  · rintro ⟨k, n, he, h1, h2, h3⟩
    exact ⟨(k, n), (mem_iff_mfind nodes hs _ _).2 he, ⟨h1, h2⟩, h3⟩

theorem preparing_iff {nodes : NodeMap} (hs : Sorted nodes) (p : Int) : preparing nodes p = true ↔
    ∃ k n, mfind nodes k = some n ∧ n.role = .master ∧ (n.state = .prepare ∨ n.state = .ready) ∧
      n.partition = p := by
  simp only [preparing, List.any_eq_true, Bool.and_eq_true, decide_eq_true_eq, Bool.or_eq_true]
  constructor
  · rintro ⟨e, he, h⟩
    exact ⟨e.1, e.2, (mem_iff_mfind nodes hs _ _).1 he, h.1.1, h.1.2, h.2⟩
  · rintro ⟨k, n, he, h1, h2, h3⟩
    exact ⟨(k, n), (mem_iff_mfind nodes hs _ _).2 he, ⟨h1, h2⟩, h3⟩

theorem Good.exists_range {N : Nat} {nodes : NodeMap} (hs : Sorted nodes) (h : Good N (mfind nodes))
    (p : Int) : exists_ nodes p = true ↔ 0 ≤ p ∧ p < N := by
  rw [exists_iff hs]
  constructor
  · rintro ⟨k, n, h1, h2, h3, rfl⟩
    have := h.master k n h1 h2
    exact ⟨this.2.1, this.2.2.1 h3⟩
  · rintro ⟨h1, h2⟩
    obtain ⟨k, n, h3, h4, h5, h6⟩ := h.all p h1 h2
    exact ⟨k, n, h3, h4, h6, h5⟩

theorem Good.preparing_eq {N : Nat} {nodes : NodeMap} (hs : Sorted nodes) (h : Good N (mfind nodes))
    (p : Int) (hp : preparing nodes p = true) : p = N := by
  rw [preparing_iff hs] at hp
  obtain ⟨k, n, h1, h2, h3, rfl⟩ := hp
  exact (h.master k n h1 h2).2.2.2 h3

theorem state_cases (n : Node) : (n.state = .active ∨ n.state = .down) ∨ (n.state = .prepare ∨ n.state = .ready) := by
  cases n.state <;> simp

/-- A consistent node map is always accepted, and the tables describe it. -/
theorem Good.reconstruct {N : Nat} {nodes : NodeMap} (near : NodeKey → Bool) (hs : Sorted nodes)
    (h : Good N (mfind nodes)) : ∃ t, Flare.reconstruct near nodes = some t ∧ t.ok = true ∧
      Describes near nodes t.npm t.nppm ∧ t.npm.length = N := by
  have h1 := afterMasters near nodes (h.mastersOk hs)
  have h2 := afterSlaves near nodes _ h1 nodes (by
    intro e he hr hd
    have hm := (mem_iff_mfind nodes hs _ _).1 he
    obtain ⟨-, -, h0, k', m, hk', hmr, hmp⟩ := h.slave _ _ hm hr
    refine ⟨h0, ?_⟩
    rcases state_cases m with hc | hc
    · left; rw [exists_iff hs]; exact ⟨k', m, hk', hmr, hc, hmp⟩
    · right; rw [preparing_iff hs]; exact ⟨k', m, hk', hmr, hc, hmp⟩)
  generalize ht : nodes.foldl (passSlave near) (nodes.foldl (passMaster near) ⟨[], [], true⟩) = t at h2
  have hkeys : ∀ p : Int, p ∈ t.npm.map (·.1) ↔ 0 ≤ p ∧ p < N := by
    intro p
    rw [← h.exists_range hs p]
    have := mfind_none_iff t.npm p
    rw [h2.main] at this
    cases he : exists_ nodes p <;> simp only [he, if_true, Bool.false_eq_true, if_false, true_iff] at this ⊢
    · simp only [iff_false]; exact this
    · simp only [iff_true]
      by_contra hc
      exact absurd (this.2 hc) (by simp)
  have hlen : t.npm.length = N := length_of_keys _ h2.keys N hkeys
  have hpk : ∀ p : Int, p ∈ t.nppm.map (·.1) → p = N := by
    intro p hp
    apply h.preparing_eq hs
    by_contra hc
    have hn : mfind t.nppm p = none := by rw [h2.prep, if_neg hc]
    exact (mfind_none_iff _ _).1 hn hp
  have hok : tablesOk t = true := by
    simp only [tablesOk, Bool.and_eq_true, Bool.or_eq_true, decide_eq_true_eq, List.all_eq_true, hlen]
    refine ⟨⟨?_, ?_⟩, ?_⟩
    · by_cases h0 : N = 0
      · exact Or.inl h0
      · right
        have hle := top_le t.npm 0 ((N : Int) - 1) (by omega) (by
          intro e he
          have := (hkeys e.1).1 (List.mem_map.2 ⟨e, he, rfl⟩)
          omega)
        have hge := (le_top t.npm 0).2
        have hmem : ((N : Int) - 1) ∈ t.npm.map (·.1) := (hkeys _).2 ⟨by omega, by omega⟩
        obtain ⟨e, he, hee⟩ := List.mem_map.1 hmem
        have := hge e he
        omega
    · have : t.nppm.map (·.1) ⊆ [(N : Int)] := by
        intro p hp; simp [hpk p hp]
      have := (List.subperm_of_subset h2.prepKeys this).length_le
      simpa using this
    · intro e he; exact hpk e.1 (List.mem_map.2 ⟨e, he, rfl⟩)
  refine ⟨t, ?_, h2.ok, ⟨h2.main, h2.prep, h2.keys, h2.prepKeys⟩, hlen⟩
  simp only [Flare.reconstruct, ht, hok, if_true]

/-! ### Accepted node maps -/

theorem passMaster_ok (near : NodeKey → Bool) (t : Tables) (e : NodeKey × Node)
    (h : (passMaster near t e).ok = true) : t.ok = true := by
  obtain ⟨k, n⟩ := e
  simp only [passMaster] at h
  split at h
  · exact h
  · cases hs : n.state <;> simp only [hs, reduceCtorEq, if_false, if_true, false_and, true_and] at h
    all_goals (repeat' split at h) <;> first | exact h | cases h

theorem passSlave_ok (near : NodeKey → Bool) (t : Tables) (e : NodeKey × Node)
    (h : (passSlave near t e).ok = true) : t.ok = true := by
  obtain ⟨k, n⟩ := e
  simp only [passSlave] at h
  repeat' split at h
  all_goals first | exact h | cases h

theorem afterMasters_of_ok (near : NodeKey → Bool) (l : NodeMap)
    (hd : ∀ e ∈ l, e.2.role = .master → e.2.state = .down → 0 ≤ e.2.partition)
    (hok : (l.foldl (passMaster near) ⟨[], [], true⟩).ok = true) :
    AfterMasters near l (l.foldl (passMaster near) ⟨[], [], true⟩) ∧
      (∀ e ∈ l, e.2.role = .master → 0 ≤ e.2.partition) ∧
      (∀ p, (activeMasters l p).length ≤ 1) ∧ ∀ p, (preparingMasters l p).length ≤ 1 := by
  induction l using List.reverseRecOn with
  | nil =>
    exact ⟨⟨rfl, by intro p; simp [mfind, exists_], by intro p; simp [mfind, preparing], by simp, by simp⟩,
      by simp, by simp [activeMasters], by simp [preparingMasters]⟩
  | append_singleton l e ih =>
    obtain ⟨k, n⟩ := e
    rw [List.foldl_append, List.foldl_cons, List.foldl_nil] at hok ⊢
    obtain ⟨h1, h2, h3, h4⟩ := ih (fun e he => hd e (by simp [he])) (passMaster_ok near _ _ hok)
    generalize l.foldl (passMaster near) ⟨[], [], true⟩ = t at *
    have hp : n.role = .master → 0 ≤ n.partition := by
      intro hr
      by_contra hneg
      have hneg : n.partition < 0 := by omega
      by_cases hs : n.state = .down
      · have := hd (k, n) (by simp) hr hs
        simp only at this; omega
      · simp [passMaster, hr, hs, hneg] at hok
    have hhead : ∀ (near : NodeKey → Bool) (ms : NodeMap), (mkPart near ms []).master = none → ms = [] := by
      intro near ms hm
      cases ms with
      | nil => rfl
      | cons a ms => simp [mkPart] at hm
    have hu : n.role = .master → (n.state = .active → activeMasters l n.partition = []) ∧
        (n.state = .prepare ∨ n.state = .ready → preparingMasters l n.partition = []) := by
      intro hr
      have hneg : ¬ n.partition < 0 := by have := hp hr; omega
      refine ⟨fun hs => ?_, fun hs => ?_⟩
      · apply hhead near
        rw [← h1.pget]
        by_contra hm
        simp [passMaster, hr, hs, hneg, pget_ptouch, hm] at hok
      · apply hhead (fun _ => false)
        rw [← h1.pgetPrep]
        by_contra hm
        rcases hs with hs | hs <;> simp [passMaster, hr, hs, hneg, pget_ptouch, hm] at hok
    refine ⟨afterMasters_step h1 k n hp hu, ?_, ?_, ?_⟩
    · intro e he
      simp only [List.mem_append, List.mem_singleton] at he
      rcases he with he | rfl
      · exact h2 e he
      · exact hp
    · intro p
      rw [activeMasters_append]
      split
      · next hc => rw [← hc.2.2, (hu hc.1).1 hc.2.1]; simp
      · simpa using h3 p
    · intro p
      rw [preparingMasters_append]
      split
      · next hc => rw [← hc.2.2, (hu hc.1).2 hc.2.1]; simp
      · simpa using h4 p

theorem afterSlaves_of_ok (near : NodeKey → Bool) (nodes : NodeMap) (t : Tables)
    (ht : AfterMasters near nodes t) (l : NodeMap)
    (hok : (l.foldl (passSlave near) t).ok = true) :
    AfterSlaves near nodes l (l.foldl (passSlave near) t) ∧
      ∀ e ∈ l, e.2.role = .slave → e.2.state ≠ .down → 0 ≤ e.2.partition ∧
        (exists_ nodes e.2.partition = true ∨ preparing nodes e.2.partition = true) := by
  induction l using List.reverseRecOn with
  | nil =>
    refine ⟨⟨ht.ok, ht.main, ?_, ht.keys, ht.prepKeys⟩, by simp⟩
    intro p
    simp only [List.foldl_nil]
    rw [ht.prep]
    have : slavesOf [] p = [] := rfl
    simp [this]
  | append_singleton l e ih =>
    obtain ⟨k, n⟩ := e
    rw [List.foldl_append, List.foldl_cons, List.foldl_nil] at hok ⊢
    obtain ⟨h1, h2⟩ := ih (passSlave_ok near _ _ hok)
    generalize l.foldl (passSlave near) t = t' at *
    have hp : n.role = .slave → n.state ≠ .down → 0 ≤ n.partition ∧
        (exists_ nodes n.partition = true ∨ preparing nodes n.partition = true) := by
      intro hr hs
      have hneg : ¬ n.partition < 0 := by
        intro hneg; simp [passSlave, hr, hs, hneg] at hok
      refine ⟨by omega, ?_⟩
      by_contra hc
      simp only [not_or, Bool.not_eq_true] at hc
      simp [passSlave, hr, hs, hneg, h1.main, h1.prep, hc.1, hc.2] at hok
    refine ⟨afterSlaves_step h1 k n hp, ?_⟩
    intro e he
    simp only [List.mem_append, List.mem_singleton] at he
    rcases he with he | rfl
    · exact h2 e he
    · exact hp

/-- Tables that were accepted describe the node map, and the partitions are 0 … n-1. -/
theorem reconstruct_ok (near : NodeKey → Bool) (nodes : NodeMap) (t : Tables)
    (hd : ∀ e ∈ nodes, e.2.role = .master → e.2.state = .down → 0 ≤ e.2.partition)
    (hr : reconstruct near nodes = some t) (hok : t.ok = true) :
    Describes near nodes t.npm t.nppm ∧ (∀ p : Int, p ∈ t.npm.map (·.1) ↔ 0 ≤ p ∧ p < t.npm.length) ∧
      (∀ p : Int, p ∈ t.nppm.map (·.1) → p = t.npm.length) ∧
      (∀ p, (activeMasters nodes p).length ≤ 1) ∧ (∀ p, (preparingMasters nodes p).length ≤ 1) ∧
      ∀ e ∈ nodes, e.2.role = .slave → e.2.state ≠ .down → 0 ≤ e.2.partition ∧
        (exists_ nodes e.2.partition = true ∨ preparing nodes e.2.partition = true) := by
  simp only [reconstruct] at hr
  split at hr
  swap
  · cases hr
  next htab =>
  cases hr
  have hok1 : (nodes.foldl (passMaster near) ⟨[], [], true⟩).ok = true := by
    have : ∀ (l : NodeMap) t, (l.foldl (passSlave near) t).ok = true → t.ok = true := by
      intro l
      induction l with
      | nil => intro t h; exact h
      | cons e l ih => intro t h; exact passSlave_ok near t e (ih _ h)
    exact this _ _ hok
  obtain ⟨h1, h2, h3, h4⟩ := afterMasters_of_ok near nodes hd hok1
  obtain ⟨h5, h6⟩ := afterSlaves_of_ok near nodes _ h1 nodes hok
  generalize nodes.foldl (passSlave near) (nodes.foldl (passMaster near) ⟨[], [], true⟩) = t at *
  have hnonneg : ∀ p, p ∈ t.npm.map (·.1) → 0 ≤ p := by
    intro p hp
    have : exists_ nodes p = true := by
      by_contra hc
      have hn : mfind t.npm p = none := by rw [h5.main, if_neg hc]
      exact (mfind_none_iff _ _).1 hn hp
    simp only [exists_, List.any_eq_true, Bool.and_eq_true, decide_eq_true_eq] at this
    obtain ⟨e, he, hc⟩ := this
    rw [← hc.2]
    exact h2 e he hc.1.1
  simp only [tablesOk, Bool.and_eq_true, Bool.or_eq_true, decide_eq_true_eq, List.all_eq_true] at htab
  obtain ⟨⟨htop, -⟩, hpk⟩ := htab
  refine ⟨⟨h5.main, h5.prep, h5.keys, h5.prepKeys⟩, ?_, ?_, h3, h4, h6⟩
  · rcases htop with h0 | htop
    · intro p
      rw [List.length_eq_zero_iff.1 h0]
      simp only [List.map_nil, List.not_mem_nil, false_iff, List.length_nil]
      omega
    · have hsub : t.npm.map (·.1) ⊆ (List.range t.npm.length).map Int.ofNat := by
        intro p hp
        have h0 := hnonneg p hp
        obtain ⟨e, he, rfl⟩ := List.mem_map.1 hp
        have := (le_top t.npm 0).2 e he
        exact List.mem_map.2 ⟨e.1.toNat, List.mem_range.2 (by omega), by simp; omega⟩
      have hperm := (List.subperm_of_subset h5.keys hsub).perm_of_length_le (by simp)
      intro p
      rw [hperm.mem_iff, List.mem_map]
      constructor
      · rintro ⟨a, ha, rfl⟩
        have := List.mem_range.1 ha
        simp only [Int.ofNat_eq_natCast]; omega
      · rintro ⟨h1, h2⟩
        exact ⟨p.toNat, List.mem_range.2 (by omega), by simp; omega⟩
  · intro p hp
    obtain ⟨e, he, rfl⟩ := List.mem_map.1 hp
    exact hpk e he

end Flare
