import Verif.Lemmas.ClusterSteps
import Verif.Spec.NodeView

set_option linter.unusedSimpArgs false

namespace Flare

/-- The result of the body of a command on a loaded state: nothing stored, or a state with the version of
the loaded one stored. -/
def Body (env : IEnv) (s : Index) (r : Index × Int) : Prop :=
  r.1.saved = s.saved ∨ ∃ s1, s1.saved = s.saved ∧ s1.version = s.version ∧ r = store env s1

theorem install_saved (s : Index) : (install s).saved = s.saved := by
  simp only [install]; split <;> rfl

theorem install_version (s : Index) : (install s).version = s.version := by
  simp only [install]; split <;> rfl

theorem Body.fin {env : IEnv} {s s1 : Index} (h1 : s1.saved = s.saved) (h2 : s1.version = s.version) :
    Body env s (finish env s1) :=
  Or.inr ⟨install s1, by rw [install_saved, h1], by rw [install_version, h2], rfl⟩

/-- What a command may store. -/
def StoredBy (s s' : Index) : Prop :=
  s'.saved = s.saved ∨
    ∃ v nm tt, s'.saved = some (v, nm, tt) ∧ s'.version = v ∧ s'.nodes = nm ∧ 1 ≤ v ∧
      ∀ v0 nm0 tt0, s.saved = some (v0, nm0, tt0) → v = v0 + 1

theorem withLoad_stored (env : IEnv) (s : Index) (f : Index → Index × Int)
    (hf : ∀ s, Body env s (f s)) : StoredBy s (withLoad env s f).1 := by
  simp only [withLoad]
  cases env.beginOk
  · exact Or.inl rfl
  simp only [if_true]
  have hload : (load env s).1.saved = s.saved ∧ ((load env s).2 = true → ∀ v nm tt, s.saved = some (v, nm, tt) →
      (load env s).1.version = v) := by
    simp only [load]
    cases env.loadOk
    · exact ⟨rfl, by simp⟩
    · simp only [if_true]
      cases hs : s.saved with
      | none => exact ⟨by simp only [hs], by simp⟩
      | some q =>
        obtain ⟨v, nm, tt⟩ := q
        exact ⟨rfl, by rintro - v' nm' tt' h; cases h; rfl⟩
  obtain ⟨s1, b, h1⟩ : ∃ s1 b, load env s = (s1, b) := ⟨_, _, rfl⟩
  rw [h1] at hload
  simp only [h1]
  cases b
  · exact Or.inl hload.1
  · simp only
    rcases hf s1 with h2 | ⟨s2, h3, h4, h5⟩
    · exact Or.inl (by rw [h2, hload.1])
    · rw [h5, store_eq]
      simp only [save]
      cases env.storeOk
      · exact Or.inl (by simp only [Bool.false_eq_true, if_false]; rw [h3, hload.1])
      · refine Or.inr ⟨_, _, _, rfl, rfl, rfl, by omega, ?_⟩
        intro v0 nm0 tt0 hs
        have := hload.2 rfl v0 nm0 tt0 hs
        simp only at this
        rw [h4, this]

theorem addNode_stored (env : IEnv) (s : Index) (k : NodeKey) : StoredBy s (addNode env s k).1 := by
  apply withLoad_stored
  intro s
  split
  · split
    · exact Or.inr ⟨s, rfl, rfl, rfl⟩
    · exact Or.inl rfl
  · exact Or.inr ⟨{ s with
      nodes := mset s.nodes k ⟨.proxy, .active, -1, 0, s.threadType⟩
      threadType := s.threadType + 1 }, rfl, rfl, rfl⟩

theorem readyNode_stored (env : IEnv) (s : Index) (k : NodeKey) : StoredBy s (readyNode env s k).1 := by
  apply withLoad_stored
  intro s
  split
  · exact Or.inl rfl
  · split
    · exact Or.inl rfl
    · exact Body.fin rfl rfl

theorem removeNode_stored (env : IEnv) (s : Index) (k : NodeKey) : StoredBy s (removeNode env s k).1 := by
  apply withLoad_stored
  intro s
  split
  · exact Or.inl rfl
  · split
    · exact Or.inl rfl
    · split
      · exact Or.inl rfl
      · exact Body.fin rfl rfl

theorem upNode_stored (env : IEnv) (s : Index) (k : NodeKey) : StoredBy s (upNode env s k).1 := by
  apply withLoad_stored
  intro s
  dsimp only
  split
  · exact Or.inl rfl
  · split
    · exact Or.inl rfl
    · split
      · exact Or.inl rfl
      · exact Body.fin rfl rfl

theorem downNode_stored (env : IEnv) (s : Index) (k : NodeKey) : StoredBy s (downNode env s k).1 := by
  apply withLoad_stored
  intro s
  dsimp only
  split
  · exact Or.inl rfl
  · split
    · exact Or.inl rfl
    · refine Body.fin ?_ ?_
      all_goals
        dsimp only
        split
        · split
          · split
            · rfl
            · split <;> rfl
          · rfl
        · rfl

theorem setRole_stored (env : IEnv) (s : Index) (k : NodeKey) (r : Role) (b p : Int) :
    StoredBy s (setRole env s k r b p).1 := by
  apply withLoad_stored
  intro s
  dsimp only
  have hreb : ∀ s2 : Index, s2.saved = s.saved → s2.version = s.version → Body env s
      (if checkBalance s2.nodes k b then
        finish env { s2 with nodes := nmodify s2.nodes k fun n => { n with balance := b } }
       else (s2, -1)) := by
    intro s2 h1 h2
    split
    · exact Body.fin h1 h2
    · exact Or.inl h1
  have hact : ∀ (s2 : Index) (n : Node), s2.saved = s.saved → s2.version = s.version → Body env s
      (setRole.setActive k r b p s2 n
        (fun s f => finish env { s with nodes := nmodify s.nodes k f })
        (fun s => if checkBalance s.nodes k b then
          finish env { s with nodes := nmodify s.nodes k fun n => { n with balance := b } } else (s, -1))) := by
    intro s2 n h1 h2
    simp only [setRole.setActive]
    split
    · exact hreb s2 h1 h2
    · exact Or.inl h1
    · exact Or.inl h1
    · exact hreb s2 h1 h2
    · split
      · exact Body.fin h1 h2
      · exact Or.inl h1
    · split
      · exact Or.inl h1
      · split
        · exact Or.inl h1
        · exact Body.fin h1 h2
    · split
      · exact Or.inl h1
      · exact Body.fin h1 h2
    · exact Body.fin h1 h2
  split
  · exact Or.inl rfl
  · split
    · exact Or.inl rfl
    · split
      · split
        · exact hreb s rfl rfl
        · exact Or.inl rfl
        · exact Body.fin rfl rfl
        · exact Or.inl rfl
        · split
          · exact hreb s rfl rfl
          · exact Or.inl rfl
        · exact Body.fin rfl rfl
        · exact hact _ _ rfl rfl
      · exact hact _ _ rfl rfl

theorem ixStep_stored (env : IEnv) (s : Index) (c : ICmd) : StoredBy s (ixStep env s c).1 := by
  cases c with
  | add k => exact addNode_stored env s k
  | down k => exact downNode_stored env s k
  | ready k => exact readyNode_stored env s k
  | up k => exact upNode_stored env s k
  | remove k => exact removeNode_stored env s k
  | role k r b p => exact setRole_stored env s k r b p
  | state k st =>
    cases st with
    | prepare => exact Or.inl rfl
    | down => exact downNode_stored env s k
    | active => exact upNode_stored env s k
    | ready => exact readyNode_stored env s k

theorem load_saved (env : IEnv) (s : Index) : (load env s).1.saved = s.saved := by
  simp only [load]
  cases env.loadOk
  · rfl
  · simp only [if_true]
    cases hs : s.saved with
    | none => simp only [hs]
    | some q => obtain ⟨v, nm, tt⟩ := q; rfl

theorem update_keeps_saved (env : IEnv) (s : Index) : (update env s).saved = s.saved := by
  have h := load_saved env s
  simp only [update]
  obtain ⟨s1, b, h1⟩ : ∃ s1 b, load env s = (s1, b) := ⟨_, _, rfl⟩
  rw [h1] at h ⊢
  cases b
  · exact h
  · simp only [install_saved]; exact h

theorem startup_keeps_saved (saved : Option (Nat × NodeMap × Int)) (s : Index)
    (h : startup saved = some s) : s.saved = saved := by
  have h1 := load_saved {} { Index.init with saved := saved }
  simp only [startup] at h
  obtain ⟨s1, b, h2⟩ : ∃ s1 b, load {} { Index.init with saved := saved } = (s1, b) := ⟨_, _, rfl⟩
  rw [h2] at h h1
  cases b
  · simp at h
  · simp only at h h1
    split at h
    · split at h
      · cases h; exact h1
      · cases h
    · cases h

/-! ### The messages an index server sends -/

theorem restart_saved (s : Index) : (ixAct s .restart).saved = s.saved := by
  simp only [ixAct]
  cases h : startup s.saved with
  | none => rfl
  | some s' => exact startup_keeps_saved _ _ h

theorem sent_spec (as : List IAct) : ∀ s : Index,
    ((sent s as).Pairwise fun a b => a.version < b.version) ∧
    (∀ v nm tt, s.saved = some (v, nm, tt) → ∀ m ∈ sent s as, v < m.version) ∧
    (∀ m ∈ sent s as, 1 ≤ m.version) ∧
    (∀ m, (sent s as).getLast? = some m → ∃ tt, (ixRun s as).saved = some (m.version, m.nodes, tt)) ∧
    (sent s as = [] → (ixRun s as).saved = s.saved) := by
  induction as with
  | nil => intro s; simp [sent, ixRun]
  | cons a as ih =>
    intro s
    obtain ⟨h1, h2, h3, h4, h5⟩ := ih (ixAct s a)
    have hrun : ixRun s (a :: as) = ixRun (ixAct s a) as := rfl
    have hsame : ∀ (hs : sent s (a :: as) = sent (ixAct s a) as) (hv : (ixAct s a).saved = s.saved),
        ((sent s (a :: as)).Pairwise fun a b => a.version < b.version) ∧
        (∀ v nm tt, s.saved = some (v, nm, tt) → ∀ m ∈ sent s (a :: as), v < m.version) ∧
        (∀ m ∈ sent s (a :: as), 1 ≤ m.version) ∧
        (∀ m, (sent s (a :: as)).getLast? = some m →
          ∃ tt, (ixRun s (a :: as)).saved = some (m.version, m.nodes, tt)) ∧
        (sent s (a :: as) = [] → (ixRun s (a :: as)).saved = s.saved) := by
      intro hs hv
      rw [hs, hrun]
      exact ⟨h1, by rw [← hv]; exact h2, h3, h4, by rw [← hv]; exact h5⟩
    cases a with
    | update env => exact hsame rfl (update_keeps_saved env s)
    | restart => exact hsame rfl (restart_saved s)
    | cmd env c =>
      by_cases hc : (ixStep env s c).1.saved = s.saved
      · exact hsame (by simp only [sent, hc, if_true, List.nil_append]) hc
      · rcases ixStep_stored env s c with h | ⟨v, nm, tt, e1, e2, e3, e4, e5⟩
        · exact absurd h hc
        have hs : sent s (.cmd env c :: as) = ⟨nm, v⟩ :: sent (ixAct s (.cmd env c)) as := by
          simp only [sent, hc, if_false, e2, e3, List.cons_append, List.nil_append]
        have h2' := h2 v nm tt e1
        rw [hs, hrun]
        refine ⟨List.pairwise_cons.2 ⟨h2', h1⟩, ?_, ?_, ?_, by simp⟩
        · intro v0 nm0 tt0 h0 m hm
          have hv := e5 v0 nm0 tt0 h0
          simp only [List.mem_cons] at hm
          rcases hm with rfl | hm
          · simp only; omega
          · have := h2' m hm; omega
        · intro m hm
          simp only [List.mem_cons] at hm
          rcases hm with rfl | hm
          · exact e4
          · exact h3 m hm
        · intro m hm
          cases hl : sent (ixAct s (.cmd env c)) as with
          | nil =>
            rw [hl] at hm
            simp only [List.getLast?_singleton, Option.some.injEq] at hm
            subst hm
            exact ⟨tt, by rw [h5 hl]; exact e1⟩
          | cons x xs =>
            rw [hl] at hm h4
            rw [List.getLast?_cons_cons] at hm
            exact h4 m hm

/-! ### The node -/

theorem takeEntry_map (l : List (NodeKey × Node)) : ∀ (old nm : NodeMap) (sh : List Shift),
    (l.foldl takeEntry (old, nm, sh)).2.1 = l.foldl (fun m e => mset m e.1 e.2) nm := by
  induction l with
  | nil => intros; rfl
  | cons e l ih =>
    intro old nm sh
    simp only [List.foldl_cons, takeEntry]
    split <;> exact ih _ _ _

theorem View.install_nodes (near : NodeKey → Bool) (s : View) : (s.install near).nodes = s.nodes := by
  simp only [View.install]; split <;> rfl

theorem receive_accept (near : NodeKey → Bool) (me : NodeKey) (s : View) (m : NodeMsg)
    (h : s.version ≤ m.version) :
    (receive near me s m).1.nodes = build m.nodes ∧ (receive near me s m).1.version = m.version ∧
      (receive near me s m).2.1 = 0 := by
  have hn : ¬ (s.version > 0 ∧ s.version > m.version) := by omega
  simp only [receive, hn, if_false]
  refine ⟨?_, trivial, trivial⟩
  rw [View.install_nodes]
  exact takeEntry_map _ _ _ _

theorem receive_refuse (near : NodeKey → Bool) (me : NodeKey) (s : View) (m : NodeMsg)
    (h : m.version < s.version) : receive near me s m = (s, -1, []) := by
  have hn : s.version > 0 ∧ s.version > m.version := by omega
  simp only [receive, hn, and_self, if_true]

theorem receiveAll_spec (near : NodeKey → Bool) (me : NodeKey) (ms : List NodeMsg) : ∀ s : View,
    (receiveAll near me s ms = s ∧ ∀ m ∈ ms, m.version < s.version) ∨
    ∃ m ∈ ms, s.version ≤ m.version ∧ (∀ m' ∈ ms, m'.version ≤ m.version) ∧
      (receiveAll near me s ms).version = m.version ∧ (receiveAll near me s ms).nodes = build m.nodes := by
  induction ms with
  | nil => intro s; left; simp [receiveAll]
  | cons m ms ih =>
    intro s
    have hrun : receiveAll near me s (m :: ms) = receiveAll near me (receive near me s m).1 ms := rfl
    rw [hrun]
    by_cases hlt : m.version < s.version
    · rw [receive_refuse near me s m hlt]
      rcases ih s with ⟨h1, h2⟩ | ⟨m', h1, h2, h3, h4, h5⟩
      · left
        refine ⟨h1, ?_⟩
        intro m' hm'
        simp only [List.mem_cons] at hm'
        rcases hm' with rfl | hm'
        · exact hlt
        · exact h2 m' hm'
      · right
        refine ⟨m', by simp [h1], h2, ?_, h4, h5⟩
        intro m'' hm''
        simp only [List.mem_cons] at hm''
        rcases hm'' with rfl | hm''
        · omega
        · exact h3 m'' hm''
    · obtain ⟨a1, a2, -⟩ := receive_accept near me s m (by omega)
      right
      rcases ih (receive near me s m).1 with ⟨h1, h2⟩ | ⟨m', h1, h2, h3, h4, h5⟩
      · refine ⟨m, by simp, by omega, ?_, by rw [h1, a2], by rw [h1, a1]⟩
        intro m' hm'
        simp only [List.mem_cons] at hm'
        rcases hm' with rfl | hm'
        · omega
        · have := h2 m' hm'; omega
      · refine ⟨m', by simp [h1], by omega, ?_, h4, h5⟩
        intro m'' hm''
        simp only [List.mem_cons] at hm''
        rcases hm'' with rfl | hm''
        · omega
        · exact h3 m'' hm''

/-! ### Role changes of a node -/

theorem shifts_other (me : NodeKey) (l : List (NodeKey × Node)) : ∀ (old nm : NodeMap) (sh : List Shift),
    me ∉ l.map (·.1) → ((l.foldl takeEntry (old, nm, sh)).2.2).filter (fun x => x.key = me) =
      sh.filter (fun x => x.key = me) := by
  induction l with
  | nil => intros; rfl
  | cons e l ih =>
    intro old nm sh hne
    obtain ⟨k, n⟩ := e
    simp only [List.map_cons, List.mem_cons, not_or] at hne
    simp only [List.foldl_cons, takeEntry]
    split
    · exact ih _ _ _ hne.2
    · rw [ih _ _ _ hne.2]
      split
      · rw [List.filter_cons_of_neg]
        simpa using fun h => hne.1 h.symm
      · rfl

theorem shifts_of_me (me : NodeKey) (l : List (NodeKey × Node)) (hnd : (l.map (·.1)).Nodup) :
    ∀ (old nm : NodeMap) (sh : List Shift) (o n : Node), mfind old me = some o → (me, n) ∈ l →
      (n.role ≠ o.role ∨ n.partition ≠ o.partition) →
      ((l.foldl takeEntry (old, nm, sh)).2.2).filter (fun x => x.key = me) =
        ⟨me, o.role, n.role, n.partition⟩ :: sh.filter (fun x => x.key = me) := by
  induction l with
  | nil => intro old nm sh o n _ h; cases h
  | cons e l ih =>
    intro old nm sh o n ho hn hc
    obtain ⟨k, n'⟩ := e
    simp only [List.map_cons, List.nodup_cons] at hnd
    simp only [List.foldl_cons, takeEntry]
    simp only [List.mem_cons, Prod.mk.injEq] at hn
    rcases hn with ⟨rfl, rfl⟩ | hn
    · simp only [ho]
      rw [shifts_other _ l _ _ _ hnd.1, if_pos hc, List.filter_cons_of_pos]
      simp
    · have hk : k ≠ me := by
        rintro rfl
        exact hnd.1 (List.mem_map.2 ⟨(k, n), hn, rfl⟩)
      cases hok : mfind old k with
      | none => exact ih hnd.2 _ _ _ o n ho hn hc
      | some o' =>
        rw [ih hnd.2 _ _ _ o n (by rw [mfind_merase, if_neg hk]; exact ho) hn hc]
        split
        · rw [List.filter_cons_of_neg]
          simpa using hk
        · rfl

/-- Where a role change in the stack comes from. -/
theorem shifts_from (l : List (NodeKey × Node)) :
    ∀ (old nm : NodeMap) (sh : List Shift) (x : Shift), x ∈ (l.foldl takeEntry (old, nm, sh)).2.2 →
      x ∈ sh ∨ ∃ o n, mfind old x.key = some o ∧ (x.key, n) ∈ l ∧ x.oldRole = o.role ∧ x.newRole = n.role := by
  induction l with
  | nil => intro old nm sh x h; exact Or.inl h
  | cons e l ih =>
    intro old nm sh x h
    obtain ⟨k, n⟩ := e
    simp only [List.foldl_cons, takeEntry] at h
    cases hk : mfind old k with
    | none =>
      rw [hk] at h
      rcases ih _ _ _ _ h with h | ⟨o, n', h1, h2, h3⟩
      · exact Or.inl h
      · exact Or.inr ⟨o, n', h1, List.mem_cons_of_mem _ h2, h3⟩
    | some o =>
      rw [hk] at h
      rcases ih _ _ _ _ h with h | ⟨o', n', h1, h2, h3⟩
      · split at h
        · rcases List.mem_cons.1 h with rfl | h
          · exact Or.inr ⟨o, n, hk, by simp, rfl, rfl⟩
          · exact Or.inl h
        · exact Or.inl h
      · rw [mfind_merase] at h1
        split at h1
        · cases h1
        · exact Or.inr ⟨o', n', h1, List.mem_cons_of_mem _ h2, h3⟩

theorem jobs_of_me (me : NodeKey) (s : View) (l : List Shift) :
    l.flatMap (shiftRole me s) = (l.filter fun x => x.key = me).flatMap (shiftRole me s) := by
  induction l with
  | nil => rfl
  | cons x l ih =>
    by_cases h : x.key = me
    · rw [List.filter_cons_of_pos (by simpa using h), List.flatMap_cons, List.flatMap_cons, ih]
    · rw [List.filter_cons_of_neg (by simpa using h), List.flatMap_cons, ih]
      simp [shiftRole, h]

theorem mset_append (m : NodeMap) (k : NodeKey) (n : Node) (h : ∀ x ∈ m.map (·.1), x < k) :
    mset m k n = m ++ [(k, n)] := by
  induction m with
  | nil => rfl
  | cons e m ih =>
    obtain ⟨k', v⟩ := e
    have h1 : k' < k := h k' (by simp)
    simp only [mset]
    rw [if_neg (Nat.not_lt.2 (Nat.le_of_lt h1)), if_neg (Nat.ne_of_gt h1), ih (fun x hx => h x (by simp [hx]))]
    rfl

theorem build_sorted (nodes : NodeMap) (h : Sorted nodes) : build nodes = nodes := by
  have : ∀ (l acc : NodeMap), Sorted (acc ++ l) → l.foldl (fun m e => mset m e.1 e.2) acc = acc ++ l := by
    intro l
    induction l with
    | nil => intro acc _; simp
    | cons e l ih =>
      intro acc hs
      obtain ⟨k, n⟩ := e
      simp only [List.foldl_cons]
      rw [mset_append, ih]
      · simp
      · simpa using hs
      · intro x hx
        simp only [Sorted, List.map_append, List.map_cons] at hs
        exact (List.pairwise_append.1 hs).2.2 x hx k (by simp)
  simpa [build] using this nodes [] (by simpa using h)

end Flare
