import Verif.Lemmas.WardDown

/-! Which nodes are watched. -/
namespace Flare

theorem mfind_nmodify_isSome {nodes : NodeMap} {j : NodeKey} (f : Node → Node) {k : NodeKey} {n : Node}
    (hj : mfind nodes j = some n) : (mfind (nmodify nodes j f) k).isSome = (mfind nodes k).isSome := by
  rw [nmodify, mfind_mset]
  split
  next e => subst e; rw [hj]; rfl
  · rfl

/-- Only `add` and `remove` change which nodes there are. -/
theorem ixStep_present {N : Nat} {s : Index} (h : IxInv true N s) (env : IEnv) (c : ICmd) (k : NodeKey)
    (h1 : c ≠ .add k) (h2 : c ≠ .remove k) :
    (mfind (ixStep env s c).1.nodes k).isSome = (mfind s.nodes k).isSome := by
  by_cases hc : c.node = k
  swap
  · have := ixStep_other h env c k hc
    simp only [SameFor] at this
    cases ha : mfind (ixStep env s c).1.nodes k <;> cases hb : mfind s.nodes k <;> rw [ha, hb] at this <;>
      first | rfl | cases this
  have hdown : (mfind (downNode env s k).1.nodes k).isSome = (mfind s.nodes k).isSome := by
    by_cases hb : env.beginOk ∧ env.loadOk
    · cases hn : mfind s.nodes k with
      | none => simp only [downNode, h.withLoad, if_pos hb, hn]
      | some n =>
        obtain ⟨n', e, -⟩ := downNode_view h hb hn
        rw [e]; rfl
    · simp only [downNode, h.withLoad, if_neg hb]
  have hup : (mfind (upNode env s k).1.nodes k).isSome = (mfind s.nodes k).isSome := by
    by_cases hb : env.beginOk ∧ env.loadOk
    · cases hn : mfind s.nodes k with
      | none => simp only [upNode, h.withLoad, if_pos hb, hn]
      | some n =>
        obtain ⟨n', e, -⟩ := upNode_view h hb hn
        rw [e]; rfl
    · simp only [upNode, h.withLoad, if_neg hb]
  have hready : (mfind (readyNode env s k).1.nodes k).isSome = (mfind s.nodes k).isSome := by
    simp only [readyNode, h.withLoad]
    split
    · split
      · rfl
      next hn =>
        split
        · rfl
        · rw [finish_nodes]; dsimp only; exact mfind_nmodify_isSome _ hn
    · rfl
  subst hc
  cases c with
  | add j => exact absurd rfl h1
  | remove j => exact absurd rfl h2
  | down j => exact hdown
  | up j => exact hup
  | ready j => exact hready
  | role j r b p =>
    simp only [ixStep, ICmd.node]
    cases hn : mfind s.nodes j with
    | none =>
      simp only [setRole, h.withLoad]
      split
      · simp only [hn]
      · rw [hn]
    | some n =>
      refine setRole_nodes h env j r b p (fun m => (mfind m j).isSome = true) (by rw [hn]; rfl) ?_ ?_ ?_ <;>
        (intros; rw [nmodify, mfind_mset, if_pos rfl]; rfl)
  | state j st =>
    cases st with
    | prepare => rfl
    | down => exact hdown
    | active => exact hup
    | ready => exact hready

/-- What there is to say of the nodes that are watched. -/
structure Watching (fresh : Bool) (s : Ward) : Prop where
  inv : ∃ N, IxInv fresh N s.ix
  saved : ∃ v nm tt, s.ix.saved = some (v, nm, tt) ∧
    ∀ k, (mfind s.ix.nodes k).isSome = true → (mfind nm k).isSome = true → (s.watchers k).isSome = true
  known : ∀ k, (s.watchers k).isSome = true → (mfind s.ix.nodes k).isSome = true

theorem Watching.exact {s : Ward} (h : Watching true s) (k : NodeKey) :
    (s.watchers k).isSome = (mfind s.ix.nodes k).isSome := by
  obtain ⟨N, hi⟩ := h.inv
  obtain ⟨v, nm, tt, hs, hw⟩ := h.saved
  obtain ⟨-, rfl, -⟩ := (hi.saved v nm tt hs).2 rfl
  rw [Bool.eq_iff_iff]
  exact ⟨h.known k, fun hk => hw k hk hk⟩

theorem Watching.goOn {fresh : Bool} {s : Ward} (h : Watching fresh s) {k : NodeKey} {w : Watcher}
    (hk : s.watchers k = some w) (m : Mon) (r : List MonReq) : Watching fresh (s.goOn k m r) := by
  have hsame : ∀ x, ((s.goOn k m r).watchers x).isSome = (s.watchers x).isSome := by
    intro x
    simp only [Ward.goOn]
    split
    next e => subst e; rw [hk]; rfl
    · rfl
  refine ⟨h.inv, ?_, fun x hx => h.known x (by rwa [hsame] at hx)⟩
  obtain ⟨v, nm, tt, hs, hw⟩ := h.saved
  exact ⟨v, nm, tt, hs, fun x h1 h2 => by rw [hsame]; exact hw x h1 h2⟩

theorem Watching.update {fresh : Bool} {s : Ward} (h : Watching fresh s) (env : IEnv) :
    Watching (fresh || env.loadOk) { s with ix := update env s.ix, watchers := s.watchersLoaded env } := by
  obtain ⟨N, hi⟩ := h.inv
  obtain ⟨v, nm, tt, hs, hw⟩ := h.saved
  have hinv := update_inv hi env
  cases hl : env.loadOk with
  | false =>
    have e1 : Flare.update env s.ix = s.ix := by simp [Flare.update, Flare.load, hl]
    have e2 : s.watchersLoaded env = s.watchers := by simp [Ward.watchersLoaded, Flare.load, hl]
    rw [e1, e2, Bool.or_false]
    exact h
  | true =>
    have hlo : load env s.ix = ({ s.ix with version := v, nodes := nm, threadType := tt }, true) := by
      obtain ⟨⟨M, hM⟩, -⟩ := hi.saved v nm tt hs
      simp only [Flare.load, hl, if_true, hs, hM.loads]
    have hn : (Flare.update env s.ix).nodes = nm := by
      simp only [Flare.update, hlo, install]
      split <;> rfl
    have hsv : (Flare.update env s.ix).saved = some (v, nm, tt) := by
      simp only [Flare.update, hlo, install]
      split <;> exact hs
    have hwl : ∀ k, (s.watchersLoaded env k).isSome = (mfind nm k).isSome := by
      intro k
      simp only [Ward.watchersLoaded, hlo]
      cases h1 : mfind s.ix.nodes k <;> cases h2 : mfind nm k
      · simp only
        cases h3 : s.watchers k with
        | none => rfl
        | some w => have := h.known k (by rw [h3]; rfl); rw [h1] at this; cases this
      · rfl
      · rfl
      · simp only; exact hw k (by rw [h1]; rfl) (by rw [h2]; rfl)
    rw [hl] at hinv
    refine ⟨hinv, ⟨v, nm, tt, hsv, ?_⟩, ?_⟩
    · intro k _ h2; dsimp only; rw [hwl]; exact h2
    · intro k h2; dsimp only at h2 ⊢; rw [hn, ← hwl]; exact h2

theorem ixStep_saved {N : Nat} {s : Index} (h : IxInv true N s) (env : IEnv) (c : ICmd) (hc : Safe s.nodes c)
    {v : Nat} {tt : Int} (hs : s.saved = some (v, s.nodes, tt)) :
    ∃ v' nm' tt', (ixStep env s c).1.saved = some (v', nm', tt') ∧
      (((ixStep env s c).2 = 0 ∧ nm' = (ixStep env s c).1.nodes) ∨ nm' = s.nodes) := by
  rcases step_result h env c hc with hr | ⟨N', s1, -, h1, -, -, hr⟩
  · exact ⟨v, s.nodes, tt, by rw [hr]; exact hs, .inr rfl⟩
  · rw [hr]
    have hsv : (install s1).saved = s1.saved := by simp only [install]; split <;> rfl
    simp only [save]
    cases env.storeOk with
    | true => exact ⟨_, _, _, rfl, .inl ⟨rfl, rfl⟩⟩
    | false => exact ⟨v, s.nodes, tt, by simp only [Bool.false_eq_true, if_false]; rw [hsv, h1, hs], .inr rfl⟩

theorem add_present {N : Nat} {s : Index} (h : IxInv true N s) (env : IEnv) (k : NodeKey) :
    (∀ n, mfind s.nodes k = some n → mfind (ixStep env s (.add k)).1.nodes k = some n) ∧
    (mfind s.nodes k = none → (ixStep env s (.add k)).2 = 0 →
      mfind (ixStep env s (.add k)).1.nodes k = some ⟨.proxy, .active, -1, 0, s.threadType⟩) := by
  simp only [ixStep, addNode, h.withLoad]
  split
  · refine ⟨fun n hn => ?_, fun hn _ => ?_⟩
    · simp only [hn]
      split
      · rw [store_nodes]; exact hn
      · exact hn
    · simp only [hn]
      rw [store_nodes]; dsimp only
      rw [mfind_mset, if_pos rfl]
  · exact ⟨fun n hn => hn, fun _ x => by cases x⟩

theorem remove_present {N : Nat} {s : Index} (h : IxInv true N s) (env : IEnv) {k : NodeKey} {n : Node}
    (hk : mfind (ixStep env s (.remove k)).1.nodes k = some n) : (mfind s.nodes k).isSome = (some n).isSome := by
  cases hb : mfind s.nodes k with
  | some m => rfl
  | none =>
    exfalso
    simp only [ixStep, removeNode, h.withLoad, hb] at hk
    split at hk <;> rw [hb] at hk <;> cases hk

theorem Watching.command {s : Ward} (h : Watching true s) (env : IEnv) (c : ICmd) (hc : Safe s.ix.nodes c) :
    Watching env.storeOk (s.command env c) := by
  obtain ⟨N, hi⟩ := h.inv
  obtain ⟨v, nm, tt, hs, hw⟩ := h.saved
  obtain ⟨-, rfl, -⟩ := (hi.saved v nm tt hs).2 rfl
  have hx := h.exact
  have hinv : ∃ N', IxInv env.storeOk N' (ixStep env s.ix c).1 :=
    run_inv [.cmd env c] true N s.ix hi ⟨rfl, hc, trivial⟩
  obtain ⟨v', nm', tt', hs', hor⟩ := ixStep_saved hi env c hc hs
  have hload : ∀ k, (if env.beginOk then s.watchersLoaded env else s.watchers) k = s.watchers k := by
    intro k
    split
    · simp only [Ward.watchersLoaded, hi.load]
      cases env.loadOk
      · rfl
      · simp only
        cases mfind s.ix.nodes k <;> rfl
    · rfl
  have main : ∀ k, (s.watchersAfter env c k).isSome = (mfind (ixStep env s.ix c).1.nodes k).isSome ∨
      (s.watchersAfter env c k = none ∧ mfind nm' k = none) := by
    intro k
    by_cases ha : c = .add k
    · subst ha
      obtain ⟨h1, h2⟩ := add_present hi env k
      simp only [Ward.watchersAfter, hi.load]
      cases hk : mfind s.ix.nodes k with
      | some n =>
        left
        rw [if_neg (by simp), hload, hx, h1 n hk, hk]
      | none =>
        by_cases hr : (ixStep env s.ix (.add k)).2 = 0
        · left
          rw [if_pos ⟨hr, rfl⟩, if_pos rfl, h2 hk hr]; rfl
        · right
          rw [if_neg (fun x => hr x.1), hload]
          refine ⟨?_, ?_⟩
          · have := hx k
            rw [hk] at this
            cases hw : s.watchers k with
            | none => rfl
            | some w => rw [hw] at this; cases this
          · rcases hor with ⟨h0, -⟩ | rfl
            · exact absurd h0 hr
            · exact hk
    · by_cases hrm : c = .remove k
      · subst hrm
        left
        simp only [Ward.watchersAfter, hi.load]
        cases hk : mfind (ixStep env s.ix (.remove k)).1.nodes k with
        | none =>
          split
          · dsimp only; rw [if_pos rfl]; rfl
          next hno =>
            rw [hload, hx]
            cases hb : mfind s.ix.nodes k with
            | none => rfl
            | some n =>
              exfalso
              have hne : ¬ (env.beginOk = true ∧ env.loadOk = true) := fun x => hno ⟨x.1, x.2, by simp [hb], rfl⟩
              simp only [ixStep, removeNode, hi.withLoad, if_neg hne] at hk
              rw [hb] at hk; cases hk
        | some n =>
          rw [if_neg (by simp), hload, hx]
          exact remove_present hi env hk
      · left
        have hp := ixStep_present hi env c k ha hrm
        rw [hp, ← hx k]
        simp only [Ward.watchersAfter]
        cases c with
        | add j =>
          simp only
          split
          · dsimp only; rw [if_neg (fun e : k = j => ha (by rw [e])), hload]
          · rw [hload]
        | remove j =>
          simp only
          split
          · dsimp only; rw [if_neg (fun e : k = j => hrm (by rw [e])), hload]
          · rw [hload]
        | state j st => cases st <;> first | rfl | (simp only; rw [hload])
        | _ => simp only; rw [hload]
  refine ⟨hinv, ⟨v', nm', tt', hs', ?_⟩, ?_⟩
  · intro k h1 h2
    rcases main k with e | ⟨-, e⟩
    · simp only [Ward.command]; rw [e]; exact h1
    · rw [e] at h2; cases h2
  · intro k h1
    rcases main k with e | ⟨e, -⟩
    · simp only [Ward.command] at h1 ⊢; rw [← e]; exact h1
    · simp only [Ward.command] at h1; rw [e] at h1; cases h1

theorem watching_step {fresh : Bool} {s s' : Ward} {e : WardEv} (h : Watching fresh s)
    (hc : Ward.OrderlyRun fresh s [e]) (hs : s.step e = some s') : Watching (WardEv.freshAfter fresh [e]) s' := by
  cases e with
  | connect k ok =>
    simp only [Ward.step] at hs
    split at hs
    next m hm => cases hs; exact h.goOn hm _ _
    · cases hs; exact h
  | round k g =>
    simp only [Ward.step] at hs
    split at hs
    next m hm =>
      cases hst : m.step (s.view k) g with
      | none => rw [hst] at hs; cases hs
      | some x => rw [hst] at hs; cases hs; exact h.goOn hm _ _
    · cases hs; exact h
  | control env =>
    obtain ⟨rfl, hsafe⟩ := hc.1
    simp only [Ward.step] at hs
    split at hs
    next hq =>
      cases hs
      obtain ⟨N, hi⟩ := h.inv
      exact ⟨⟨N, hi.weaken _⟩, h.saved, h.known⟩
    next j r q hq =>
      cases hs
      exact Watching.command (s := { s with queue := q }) ⟨h.inv, h.saved, h.known⟩ env _ (hsafe j r q hq)
  | cmd env c =>
    obtain ⟨rfl, hsafe⟩ := hc.1
    cases hs
    exact h.command env c hsafe
  | update env => cases hs; exact h.update env
  | threshold t => cases hs; exact ⟨h.inv, h.saved, h.known⟩

theorem watching_run : ∀ (l : List WardEv) {fresh : Bool} {s s' : Ward}, Watching fresh s →
    Ward.OrderlyRun fresh s l → s.run l = some s' → Watching (WardEv.freshAfter fresh l) s' := by
  intro l
  induction l with
  | nil => intro fresh s s' h _ hs; cases hs; exact h
  | cons e l ih =>
    intro fresh s s' h hc hs
    simp only [Ward.run] at hs
    cases h1 : s.step e with
    | none => rw [h1] at hs; cases hs
    | some s1 =>
      rw [h1] at hs
      exact ih (watching_step h ⟨hc.1, fun _ _ => trivial⟩ h1) (hc.2 s1 h1) hs

end Flare
