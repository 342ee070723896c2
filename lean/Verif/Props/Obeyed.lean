import Verif.Lemmas.Ward

/-! # C26: a command that is answered with OK has been carried out -/

namespace Flare

/-- What the one who sends a command wants to find in the node map. -/
def ICmd.Wanted (m : NodeMap) : ICmd → Prop
  | .add k => ∃ n, mfind m k = some n
  | .down k => ∃ n, mfind m k = some n ∧ n.state = .down
  | .ready k => ∃ n, mfind m k = some n ∧ n.state = .ready
  | .up k => ∃ n, mfind m k = some n ∧ n.state = .active
  | .remove k => mfind m k = none
  | .role k r _ _ => ∃ n, mfind m k = some n ∧ n.role = r
  | .state k st => ∃ n, mfind m k = some n ∧ n.state = st

theorem withLoad_zero {env : IEnv} {s : Index} {f : Index → Index × Int} {P : NodeMap → Prop}
    (hf : ∀ s, (f s).2 = 0 → P (f s).1.nodes) (h : (withLoad env s f).2 = 0) : P (withLoad env s f).1.nodes := by
  revert h
  unfold withLoad
  split
  · split
    · exact hf _
    · intro h; exact absurd (show (-1 : Int) = 0 from h) (by decide)
  · intro h; exact absurd (show (-1 : Int) = 0 from h) (by decide)

theorem nmodify_find (m : NodeMap) (k : NodeKey) (f : Node → Node) :
    mfind (nmodify m k f) k = some (f (nget m k)) := by
  simp [nmodify, mfind_mset]

theorem ite_down (b : Bool) (n : Node) :
    (if b then { n with state := .down } else { n.clear with state := .down } : Node).state = .down := by
  cases b <;> rfl

theorem down_wanted {env : IEnv} {s : Index} {k : NodeKey} (h : (downNode env s k).2 = 0) :
    ∃ n, mfind (downNode env s k).1.nodes k = some n ∧ n.state = .down := by
  refine withLoad_zero (P := fun m => ∃ n, mfind m k = some n ∧ n.state = .down) (fun s => ?_) h
  cases hn : mfind s.nodes k with
  | none => intro h; exact absurd (show (-1 : Int) = 0 from h) (by decide)
  | some n =>
    by_cases hd : n.state = .down
    · intro _; simp only [hd, if_true]; exact ⟨n, hn, hd⟩
    · intro _
      simp only [hd, if_false, finish_nodes, nmodify_find]
      exact ⟨_, rfl, ite_down _ _⟩

theorem up_wanted {env : IEnv} {s : Index} {k : NodeKey} (h : (upNode env s k).2 = 0) :
    ∃ n, mfind (upNode env s k).1.nodes k = some n ∧ n.state = .active := by
  refine withLoad_zero (P := fun m => ∃ n, mfind m k = some n ∧ n.state = .active) (fun s => ?_) h
  cases hn : mfind s.nodes k with
  | none => intro h; exact absurd (show (-1 : Int) = 0 from h) (by decide)
  | some n =>
    by_cases hd : n.state = .active
    · intro _; simp only [hd, if_true]; exact ⟨n, hn, hd⟩
    · by_cases hp : n.role ≠ .slave ∧ n.state = .prepare
      · intro h; simp only [hd, if_false, if_pos hp] at h; exact absurd (show (-1 : Int) = 0 from h) (by decide)
      · intro _
        simp only [hd, if_false, if_neg hp, finish_nodes, nmodify_find]
        exact ⟨_, rfl, rfl⟩

theorem ready_wanted {env : IEnv} {s : Index} {k : NodeKey} (h : (readyNode env s k).2 = 0) :
    ∃ n, mfind (readyNode env s k).1.nodes k = some n ∧ n.state = .ready := by
  refine withLoad_zero (P := fun m => ∃ n, mfind m k = some n ∧ n.state = .ready) (fun s => ?_) h
  cases hn : mfind s.nodes k with
  | none => intro h; exact absurd (show (-1 : Int) = 0 from h) (by decide)
  | some n =>
    by_cases hd : n.state ≠ .prepare
    · intro h; simp only [if_pos hd] at h; exact absurd (show (-1 : Int) = 0 from h) (by decide)
    · intro _
      simp only [if_neg hd, finish_nodes, nmodify_find]
      exact ⟨_, rfl, rfl⟩

theorem remove_wanted {env : IEnv} {s : Index} {k : NodeKey} (h : (removeNode env s k).2 = 0) :
    mfind (removeNode env s k).1.nodes k = none := by
  refine withLoad_zero (P := fun m => mfind m k = none) (fun s => ?_) h
  cases hn : mfind s.nodes k with
  | none => intro h; exact absurd (show (-1 : Int) = 0 from h) (by decide)
  | some n =>
    by_cases hd : n.state ≠ .down
    · intro h; simp only [if_pos hd] at h; exact absurd (show (-1 : Int) = 0 from h) (by decide)
    · by_cases hp : n.role = .master ∧ ¬ otherAlive s.nodes k n.partition
      · intro h; simp only [if_neg hd, if_pos hp] at h; exact absurd (show (-1 : Int) = 0 from h) (by decide)
      · intro _
        simp only [if_neg hd, if_neg hp, finish_nodes, mfind_merase]
        simp

theorem add_wanted {env : IEnv} {s : Index} {k : NodeKey} (h : (addNode env s k).2 = 0) :
    ∃ n, mfind (addNode env s k).1.nodes k = some n := by
  refine withLoad_zero (P := fun m => ∃ n, mfind m k = some n) (fun s => ?_) h
  cases hn : mfind s.nodes k with
  | none => intro _; simp only [store_nodes, mfind_mset, if_true]; exact ⟨_, rfl⟩
  | some n =>
    by_cases hd : n.state = .down
    · intro _; simp only [if_pos hd, store_nodes]; exact ⟨n, hn⟩
    · intro h; simp only [if_neg hd] at h; exact absurd (show (-1 : Int) = 0 from h) (by decide)

theorem setActive_wanted {env : IEnv} {s : Index} {k : NodeKey} {role : Role} {balance p : Int} {n : Node}
    (hn : mfind s.nodes k = some n)
    (h : (setRole.setActive k role balance p s n (fun s f => finish env { s with nodes := nmodify s.nodes k f })
      (fun s => if checkBalance s.nodes k balance then
        finish env { s with nodes := nmodify s.nodes k fun n => { n with balance := balance } } else (s, -1))).2 = 0) :
    ∃ n', mfind (setRole.setActive k role balance p s n (fun s f => finish env { s with nodes := nmodify s.nodes k f })
      (fun s => if checkBalance s.nodes k balance then
        finish env { s with nodes := nmodify s.nodes k fun n => { n with balance := balance } } else (s, -1))).1.nodes k =
      some n' ∧ n'.role = role := by
  have hg : nget s.nodes k = n := by simp [nget, hn]
  revert h
  unfold setRole.setActive
  cases hr : n.role <;> cases role <;> simp only <;> (repeat' split) <;> intro h <;>
    first
    | exact absurd (show (-1 : Int) = 0 from h) (by decide)
    | (simp only [finish_nodes, nmodify_find, hg]; exact ⟨_, rfl, by first | rfl | exact hr⟩)

theorem role_wanted {env : IEnv} {s : Index} {k : NodeKey} {role : Role} {balance p : Int}
    (h : (setRole env s k role balance p).2 = 0) :
    ∃ n, mfind (setRole env s k role balance p).1.nodes k = some n ∧ n.role = role := by
  refine withLoad_zero (P := fun m => ∃ n, mfind m k = some n ∧ n.role = role) (fun s => ?_) h
  cases hn : mfind s.nodes k with
  | none => intro h; exact absurd (show (-1 : Int) = 0 from h) (by decide)
  | some n =>
    have hg : nget s.nodes k = n := by simp [nget, hn]
    by_cases hd : n.state = .down
    · intro h; simp only [if_pos hd] at h; exact absurd (show (-1 : Int) = 0 from h) (by decide)
    · simp only [if_neg hd]
      by_cases hp : n.state = .prepare ∨ n.state = .ready
      · simp only [if_pos hp]
        cases hr : n.role
        case proxy =>
          simp only
          intro h
          exact setActive_wanted (by simp [nmodify_find, hg, hr]) h
        all_goals
          cases role <;> simp only <;> (repeat' split) <;> intro h <;>
            first
            | exact absurd (show (-1 : Int) = 0 from h) (by decide)
            | (simp only [finish_nodes, nmodify_find, hg]; exact ⟨_, rfl, by first | rfl | exact hr⟩)
      · simp only [if_neg hp]
        intro h
        exact setActive_wanted hn h

/-- **C26**: a command that is answered with OK has been carried out, whatever the state of the index server, what it
finds stored and what fails around it: the node that was added is known, the one that was removed is not, and after a
change of state or role the node has the state or role that was asked for. -/
theorem C26_obeyed (env : IEnv) (s : Index) (c : ICmd) (h : (ixStep env s c).2 = 0) :
    c.Wanted (ixStep env s c).1.nodes := by
  cases c with
  | add k => exact add_wanted h
  | down k => exact down_wanted h
  | ready k => exact ready_wanted h
  | up k => exact up_wanted h
  | remove k => exact remove_wanted h
  | role k r b p => exact role_wanted h
  | state k st =>
    cases st with
    | prepare => exact absurd (show (-1 : Int) = 0 from h) (by decide)
    | down => exact down_wanted (env := env) (s := s) h
    | active => exact up_wanted (env := env) (s := s) h
    | ready => exact ready_wanted (env := env) (s := s) h

example : (ixStep {} (ixStep {} .init (.add 5)).1 (.role 5 .master 1 0)).2 = 0 ∧
    (ixStep {} (ixStep {} .init (.add 5)).1 (.state 5 .prepare)).2 = -1 ∧
    (ixStep {} (ixStep {} .init (.add 5)).1 (.state 5 .down)).2 = 0 := by decide +kernel

/-- How a command ends: with an error, without a change, or with saving. -/
def ICmd.Ends (env : IEnv) (s : Index) (r : Index × Int) : Prop :=
  r.2 = -1 ∨ r = (s, 0) ∨ ∃ t, r = store env t

theorem withLoad_ends {env : IEnv} {s : Index} {f : Index → Index × Int} (hf : ∀ s, ICmd.Ends env s (f s)) :
    ICmd.Ends env (load env s).1 (withLoad env s f) := by
  unfold withLoad
  split
  · cases h : load env s with
    | mk t b =>
      cases b
      · exact .inl rfl
      · exact hf t
  · exact .inl rfl

theorem step_ends (env : IEnv) (s : Index) (c : ICmd) : ICmd.Ends env (load env s).1 (ixStep env s c) := by
  have hd : ∀ k, ICmd.Ends env (load env s).1 (downNode env s k) := fun k => withLoad_ends fun s => by
    repeat' split
    all_goals first | exact .inl rfl | exact .inr (.inl rfl) | exact .inr (.inr ⟨_, rfl⟩)
  have hu : ∀ k, ICmd.Ends env (load env s).1 (upNode env s k) := fun k => withLoad_ends fun s => by
    dsimp only
    split
    · exact .inl rfl
    · split
      · exact .inr (.inl rfl)
      · split
        · exact .inl rfl
        · exact .inr (.inr ⟨_, rfl⟩)
  have hr : ∀ k, ICmd.Ends env (load env s).1 (readyNode env s k) := fun k => withLoad_ends fun s => by
    split
    · exact .inl rfl
    · split
      · exact .inl rfl
      · exact .inr (.inr ⟨_, rfl⟩)
  cases c with
  | add k =>
    refine withLoad_ends fun s => ?_
    split
    · split
      · exact .inr (.inr ⟨_, rfl⟩)
      · exact .inl rfl
    · exact .inr (.inr ⟨_, rfl⟩)
  | down k => exact hd k
  | ready k => exact hr k
  | up k => exact hu k
  | remove k =>
    refine withLoad_ends fun s => ?_
    split
    · exact .inl rfl
    · split
      · exact .inl rfl
      · split
        · exact .inl rfl
        · exact .inr (.inr ⟨_, rfl⟩)
  | role k r b p =>
    refine withLoad_ends fun s => ?_
    dsimp only [setRole.setActive]
    repeat' split
    all_goals first | exact .inl rfl | exact .inr (.inl rfl) | exact .inr (.inr ⟨_, rfl⟩)
  | state k st =>
    cases st
    case prepare => exact .inl rfl
    case down => exact hd k
    case active => exact hu k
    case ready => exact hr k

/-- **C26**: what was carried out is also stored: after an OK either nothing had to be changed, or the next index server
finds the version and the node map of the one that answered. -/
theorem C26_kept (env : IEnv) (s : Index) (c : ICmd) (h : (ixStep env s c).2 = 0) :
    (ixStep env s c).1 = (load env s).1 ∨
      (ixStep env s c).1.saved =
        some ((ixStep env s c).1.version, (ixStep env s c).1.nodes, (ixStep env s c).1.threadType) := by
  rcases step_ends env s c with h' | h' | ⟨t, h'⟩
  · rw [h'] at h; exact absurd h (by decide)
  · rw [h']; exact .inl rfl
  · rw [h'] at h ⊢
    refine .inr ?_
    revert h
    unfold store save
    dsimp only
    split <;> rename_i e <;> split at e
    all_goals cases e
    · intro _; rfl
    · intro h; exact absurd (show (-1 : Int) = 0 from h) (by decide)

end Flare
