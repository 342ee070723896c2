import Verif.Model.MultiIndex
import Verif.Lemmas.ClusterInv
import Verif.Props.Cluster

/-! Lemmas about several index servers. -/
namespace Flare

theorem plain_append (a b : List ICmd) : plain (a ++ b) = plain a ++ plain b := by simp [plain]

theorem freshAfter_plain (cs : List ICmd) : freshAfter true (plain cs) = true := by
  induction cs with
  | nil => rfl
  | cons c cs ih => exact ih

theorem ixRun_plain_snoc (s : Index) (cs : List ICmd) (c : ICmd) :
    ixRun s (plain (cs ++ [c])) = (ixStep {} (ixRun s (plain cs)) c).1 := by
  simp [plain, ixRun, List.foldl_append, ixAct]

theorem rcs_snoc (s : Index) (cs : List ICmd) (c : ICmd) :
    rcs s (cs ++ [c]) = rcs s cs ++ [(ixStep {} (ixRun s (plain cs)) c).2] := by
  induction cs generalizing s with
  | nil => rfl
  | cons a cs ih =>
    show _ :: rcs _ (cs ++ [c]) = _ :: (rcs _ cs ++ _)
    rw [ih]; rfl

/-- What the stored map says when no save is pending. -/
structure Kept (s : Index) : Prop where
  inv : ∃ N, IxInv true N s
  empty : s.saved = none → s = Index.init

theorem kept_init : Kept Index.init := ⟨⟨0, init_inv⟩, fun _ => rfl⟩

theorem Kept.step {s : Index} (K : Kept s) (c : ICmd) (hs : Safe s.nodes c) :
    Kept (ixStep {} s c).1 ∧
      ((ixStep {} s c).1 = s ∨
        ((ixStep {} s c).1.saved ≠ s.saved ∧ (ixStep {} s c).1.saved ≠ none)) := by
  obtain ⟨N, h⟩ := K.inv
  have hr := step_result h {} c hs
  obtain ⟨N', -, h'⟩ := hr.inv h
  rcases hr with hr | ⟨M, s1, _, hs1, hv1, _, hr⟩
  · rw [hr]; exact ⟨K, .inl rfl⟩
  · have hsv : (ixStep {} s c).1.saved = some ((install s1).version + 1, (install s1).nodes,
        (install s1).threadType) := by rw [hr]; rfl
    have hver : (install s1).version = s.version := by
      rw [← hv1]; unfold install; split <;> rfl
    refine ⟨⟨⟨N', h'⟩, fun hn => ?_⟩, .inr ⟨?_, by rw [hsv]; exact fun h => nomatch h⟩⟩
    · rw [hsv] at hn; cases hn
    · intro he
      rw [hsv] at he
      have := (h.saved _ _ _ he.symm).2 rfl
      omega

theorem Kept.startup {s : Index} (K : Kept s) : startup s.saved = some s := by
  obtain ⟨N, h⟩ := K.inv
  cases hs : s.saved with
  | none => rw [K.empty hs]; decide
  | some q =>
    obtain ⟨s', N', h1, h2, h3⟩ := startup_inv h.oldSaved
    have h2t := h2.tables
    have ht := h.tables
    rw [hs] at h1 h3
    rw [h1]
    obtain ⟨nodes, tty, ver, npm, nppm, saved⟩ := s
    obtain ⟨nodes', tty', ver', npm', nppm', saved'⟩ := s'
    obtain ⟨v, nm, tt⟩ := q
    obtain ⟨a1, a2, a3⟩ := (h.saved v nm tt hs).2 rfl
    obtain ⟨b1, b2, b3⟩ := (h2.saved v nm tt h3).2 rfl
    simp only at a1 a2 a3 b1 b2 b3 h3 hs
    subst a1; subst a2; subst a3; subst b1; subst b2; subst b3
    simp only [TablesOk] at ht h2t
    rw [ht] at h2t
    cases h2t
    rw [h3, hs]

/-- Whatever a server had in memory, after `_update` it has what is stored. -/
theorem Kept.update {s : Index} (K : Kept s) (hn : s.saved ≠ none) (x : Index) :
    update {} { x with saved := s.saved } = s := by
  obtain ⟨N, h⟩ := K.inv
  have ht := h.tables
  have hl := h.map.loads
  cases hs : s.saved with
  | none => exact absurd hs hn
  | some q =>
    obtain ⟨v, nm, tt⟩ := q
    obtain ⟨a1, a2, a3⟩ := (h.saved v nm tt hs).2 rfl
    simp only [TablesOk] at ht
    obtain ⟨nodes, tty, ver, npm, nppm, saved⟩ := s
    simp only at a1 a2 a3 ht hl hs
    subst a1; subst a2; subst a3; subst hs
    simp only [Flare.update, load, if_true, hl, install, ht]

/-! ### Runs -/

theorem mRun_snoc (m : Multi) (l : List MEv) (e : MEv) : mRun m (l ++ [e]) = mStep (mRun m l) e := by
  simp [mRun, List.foldl_append]

/-- All servers agree with one that ran all commands. -/
structure MInv (m : Multi) (s : Index) : Prop where
  kept : Kept s
  saved : m.saved = s.saved
  fresh : ∀ i x, m.servers i = some x → x.watch ≠ .fired → { x.ix with saved := m.saved } = s
  fired : ∀ i x, m.servers i = some x → x.watch = .fired → m.saved ≠ none

theorem MInv.put {m : Multi} {s : Index} (I : MInv m s) (i : Nat) (x : IxServer)
    (h1 : x.watch ≠ .fired → { x.ix with saved := m.saved } = s) (h2 : x.watch = .fired → m.saved ≠ none) :
    MInv (m.put i x) s := by
  refine ⟨I.kept, I.saved, ?_, ?_⟩
  · intro j y hj hy
    by_cases h : j = i
    · subst h; simp [Multi.put] at hj; subst hj; exact h1 hy
    · simp only [Multi.put, if_neg h] at hj; exact I.fresh j y hj hy
  · intro j y hj hy
    by_cases h : j = i
    · subst h; simp [Multi.put] at hj; subst hj; exact h2 hy
    · simp only [Multi.put, if_neg h] at hj; exact I.fired j y hj hy

theorem same_saved (x : Index) : { x with saved := x.saved } = x := rfl

theorem MInv.boot {m : Multi} {s : Index} (I : MInv m s) (i : Nat) : MInv (mStep m (.boot i)) s := by
  simp only [mStep, I.saved, I.kept.startup]
  exact I.put i _ (fun _ => by rw [I.saved]) (fun h => by cases h)

theorem MInv.tell {m : Multi} {s : Index} (I : MInv m s) (i : Nat) : MInv (mStep m (.tell i)) s := by
  simp only [mStep]
  split
  · rename_i x hx
    have hn := I.fired i _ hx rfl
    refine I.put i _ (fun _ => ?_) (fun h => by cases h)
    rw [I.saved] at hn ⊢
    show { Flare.update {} { x with saved := s.saved } with saved := s.saved } = s
    rw [I.kept.update hn]
  · exact I

theorem MInv.arm {m : Multi} {s : Index} (I : MInv m s) (i : Nat) : MInv (mStep m (.arm i)) s := by
  simp only [mStep]
  split
  · rename_i x hx
    have := I.fresh i _ hx (by simp)
    exact I.put i _ (fun _ => this) (fun h => by cases h)
  · exact I

/-- A command on a server whose watch is set. -/
theorem MInv.cmd {m : Multi} {s x : Index} (I : MInv m s) (i : Nat) (c : ICmd)
    (hx : m.servers i = some ⟨x, .armed⟩) (safe : Safe s.nodes c)
    (gap : (mStep m (.cmd i c)).saved ≠ m.saved → ∀ j y, m.servers j = some y → y.watch ≠ .gap) :
    MInv (mStep m (.cmd i c)) (ixStep {} s c).1 ∧
    (mStep m (.cmd i c)).done = m.done ++ [(c, (ixStep {} s c).2)] := by
  have hxs : { x with saved := m.saved } = s := I.fresh i _ hx (by simp)
  obtain ⟨K, hsv⟩ := I.kept.step c safe
  have e : mStep m (.cmd i c) = Multi.write { m.put i ⟨(ixStep {} s c).1, .armed⟩ with
      done := m.done ++ [(c, (ixStep {} s c).2)] } (ixStep {} s c).1.saved := by
    simp only [mStep, hx, hxs]
  rw [e] at gap ⊢
  generalize ixStep {} s c = r at K hsv gap ⊢
  obtain ⟨s', rc⟩ := r
  simp only at K hsv gap ⊢
  unfold Multi.write at gap ⊢
  by_cases hq : s'.saved = m.saved
  · have hss : s' = s := by
      rcases hsv with h | h
      · exact h
      · exact absurd (hq.trans I.saved) h.1
    subst hss
    rw [if_pos (show s'.saved = (Multi.put m i ⟨s', .armed⟩).saved from hq)]
    have J := I.put i ⟨s', .armed⟩ (fun _ => by rw [I.saved]) (fun h => by cases h)
    exact ⟨⟨J.kept, J.saved, J.fresh, J.fired⟩, rfl⟩
  · have hq' : ¬ s'.saved = (Multi.put m i ⟨s', .armed⟩).saved := hq
    rw [if_neg hq'] at gap ⊢
    have hne : s'.saved ≠ none := by
      rcases hsv with h | h
      · exact absurd (by rw [h, I.saved]) hq
      · exact h.2
    have ng := gap hq
    refine ⟨⟨K, rfl, ?_, ?_⟩, rfl⟩
    · intro j y hj hy
      simp only [Multi.put] at hj
      by_cases h : j = i
      · subst h
        simp only [if_pos, Option.map_some, IxServer.fire, Option.some.injEq] at hj
        subst hj; exact absurd rfl hy
      · rw [if_neg h] at hj
        cases hz : m.servers j with
        | none => rw [hz] at hj; cases hj
        | some z =>
          rw [hz] at hj
          simp only [Option.map_some, Option.some.injEq] at hj
          subst hj
          have := ng j z hz
          obtain ⟨zi, zw⟩ := z
          cases zw with
          | armed => exact absurd rfl hy
          | fired => exact absurd rfl hy
          | gap => exact absurd rfl this
    · intro j y hj hy; exact hne

/-- The server runs a command only if its watch is set. -/
theorem mStep_cmd_idle {m : Multi} {i : Nat} (c : ICmd)
    (h : ∀ x, m.servers i ≠ some ⟨x, .armed⟩) : mStep m (.cmd i c) = m := by
  simp only [mStep]

/-- No change is made while a server has loaded the map, but not set its watch yet. -/
def NoGap (m : Multi) (evs : List MEv) : Prop :=
  ∀ pre e post, evs = pre ++ e :: post → (mRun m (pre ++ [e])).saved ≠ (mRun m pre).saved →
    ∀ j y, (mRun m pre).servers j = some y → y.watch ≠ .gap

theorem mInv_start : MInv {} Index.init :=
  ⟨kept_init, rfl, (fun _ _ h => nomatch h), (fun _ _ h => nomatch h)⟩

theorem mInv_run (evs : List MEv) (gap : NoGap {} evs) (cs : List ICmd)
    (hc : (mRun {} evs).done.map (·.1) = cs) (ho : Orderly true .init (plain cs)) :
    MInv (mRun {} evs) (ixRun .init (plain cs)) ∧ (mRun {} evs).done.map (·.2) = rcs .init cs := by
  obtain ⟨r, er⟩ : ∃ r, r = evs.reverse := ⟨_, rfl⟩
  have ee : evs = r.reverse := by rw [er]; simp
  clear er
  induction r generalizing evs cs with
  | nil =>
    subst ee
    cases hc
    exact ⟨mInv_start, rfl⟩
  | cons e r ih =>
    rw [List.reverse_cons] at ee
    subst ee
    have gap' : NoGap {} r.reverse := by
      intro pre e' post hp
      exact gap pre e' (post ++ [e]) (by rw [hp]; simp)
    have here := gap r.reverse e [] rfl
    rw [mRun_snoc] at hc here ⊢
    generalize hm : mRun {} r.reverse = m at *
    have same : (∀ i c, e ≠ .cmd i c) → (mStep m e).done = m.done := by
      intro h
      cases e with
      | boot i => simp only [mStep]; split <;> rfl
      | cmd i c => exact absurd rfl (h i c)
      | tell i => simp only [mStep]; split <;> rfl
      | arm i => simp only [mStep]; split <;> rfl
    cases e with
    | cmd i c =>
      by_cases hx : ∃ x, m.servers i = some ⟨x, .armed⟩
      · obtain ⟨x, hx⟩ := hx
        obtain ⟨cs', hcs'⟩ : ∃ cs', cs' = m.done.map (·.1) := ⟨_, rfl⟩
        have hdone : ∃ rc, (mStep m (.cmd i c)).done = m.done ++ [(c, rc)] := by
          simp only [mStep, hx, Multi.write]
          split <;> exact ⟨_, rfl⟩
        obtain ⟨rc, hdone⟩ := hdone
        have ecs : cs = cs' ++ [c] := by rw [← hc, hdone, hcs']; simp
        subst ecs
        rw [plain_append, orderly_append, freshAfter_plain] at ho
        obtain ⟨I, hr⟩ := ih r.reverse gap' cs' (by rw [hm]; exact hcs'.symm) ho.1 rfl
        rw [hm] at I hr
        obtain ⟨J, hd⟩ := I.cmd i c hx ho.2.2.1 here
        rw [ixRun_plain_snoc, rcs_snoc]
        refine ⟨J, ?_⟩
        rw [hd, List.map_append, hr]; rfl
      · have hx' : ∀ x, m.servers i ≠ some ⟨x, .armed⟩ := fun x h => hx ⟨x, h⟩
        rw [mStep_cmd_idle c hx'] at hc ⊢
        have := ih r.reverse gap' cs (by rw [hm]; exact hc) ho rfl
        rwa [hm] at this
    | boot i =>
      have hs := same (fun _ _ => by simp)
      rw [hs] at hc ⊢
      obtain ⟨I, hr⟩ := ih r.reverse gap' cs (by rw [hm]; exact hc) ho rfl
      rw [hm] at I hr
      exact ⟨I.boot i, hr⟩
    | tell i =>
      have hs := same (fun _ _ => by simp)
      rw [hs] at hc ⊢
      obtain ⟨I, hr⟩ := ih r.reverse gap' cs (by rw [hm]; exact hc) ho rfl
      rw [hm] at I hr
      exact ⟨I.tell i, hr⟩
    | arm i =>
      have hs := same (fun _ _ => by simp)
      rw [hs] at hc ⊢
      obtain ⟨I, hr⟩ := ih r.reverse gap' cs (by rw [hm]; exact hc) ho rfl
      rw [hm] at I hr
      exact ⟨I.arm i, hr⟩

end Flare
