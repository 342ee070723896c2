import Verif.Spec.SyncQueue

/-! Lemmas about waiting for queued requests. -/
namespace Flare

def npend (js : List QJob) : Nat := js.countP QJob.pending

theorem sum_set_lt : ∀ (js : List QJob) (i : Nat) {j j' : QJob}, js[i]? = some j →
    j'.weight < j.weight → ((js.set i j').map QJob.weight).sum < (js.map QJob.weight).sum
  | [], _, _, _, h, _ => by cases h
  | a :: js, 0, j, j', h, hw => by
    simp only [List.getElem?_cons_zero, Option.some.injEq] at h
    subst h
    simp only [List.set_cons_zero, List.map_cons, List.sum_cons]
    omega
  | a :: js, i + 1, j, j', h, hw => by
    simp only [List.getElem?_cons_succ] at h
    have := sum_set_lt js i h hw
    simp only [List.set_cons_succ, List.map_cons, List.sum_cons]
    omega

/-- Changing a job changes the number of pending ones by that job only. -/
theorem npend_set : ∀ (js : List QJob) (i : Nat) {j : QJob} (j' : QJob), js[i]? = some j →
    npend (js.set i j') + (if j.pending then 1 else 0) =
      npend js + (if j'.pending then 1 else 0)
  | [], _, _, _, h => by cases h
  | a :: js, 0, j, j', h => by
    simp only [List.getElem?_cons_zero, Option.some.injEq] at h
    subst h
    simp only [List.set_cons_zero, npend, List.countP_cons]
    omega
  | a :: js, i + 1, j, j', h => by
    simp only [List.getElem?_cons_succ] at h
    have := npend_set js i j' h
    simp only [List.set_cons_succ, npend, List.countP_cons] at this ⊢
    omega

theorem step_weight {st st' : SyncSt} {a : SyncAct} (h : st.step a = some st') :
    st'.weight < st.weight := by
  have hu : ∀ i b j, st.jobs[i]? = some j → 1 < j.weight →
      (st.unrefJob i b).weight < st.weight := by
    intro i b j hj hw
    unfold SyncSt.unrefJob SyncSt.weight
    split
    · have := sum_set_lt st.jobs i (j' := .done b) hj (by show 0 < _; omega)
      dsimp only; omega
    · have := sum_set_lt st.jobs i
        (j' := if st.refs - 1 = 0 then .signalling b else .done b) hj
        (by split
            · exact hw
            · exact Nat.lt_of_le_of_lt (Nat.zero_le 1) hw)
      dsimp only; omega
  cases a with
  | main =>
    simp only [SyncSt.step, SyncSt.mainStep] at h
    split at h
    · cases h
    · split at h
      · cases h
      all_goals (rename_i hp; try split at h)
      all_goals (cases h; simp only [SyncSt.weight, hp, List.map_cons, List.sum_cons,
        MainOp.weight, List.map_append, List.sum_append, List.map_nil, List.sum_nil, QJob.weight])
      all_goals omega
  | work i =>
    simp only [SyncSt.step] at h
    split at h
    · rename_i hj; cases h
      have := sum_set_lt st.jobs i (j' := .running) hj (by decide)
      simp only [SyncSt.weight]; omega
    · rename_i hj; cases h
      have := sum_set_lt st.jobs i (j' := .ran) hj (by decide)
      simp only [SyncSt.weight]; omega
    · rename_i hj; cases h
      exact hu i true _ hj (by decide)
    · rename_i b hj; cases h
      have := sum_set_lt st.jobs i (j' := .done b) hj (by simp only [QJob.weight]; omega)
      simp only [SyncSt.weight]; omega
    · cases h
  | drop i =>
    simp only [SyncSt.step] at h
    split at h
    · rename_i hj; cases h
      have := sum_set_lt st.jobs i (j' := .lost) hj (by decide)
      simp only [SyncSt.weight]; omega
    · cases h
  | flush i =>
    simp only [SyncSt.step] at h
    split at h
    · rename_i hj; cases h
      exact hu i false _ hj (by decide)
    · cases h

theorem run_weight {acts : List SyncAct} : ∀ {st st' : SyncSt}, st.run acts = some st' →
    acts.length + st'.weight ≤ st.weight := by
  induction acts with
  | nil => intro st st' h; cases h; simp
  | cons a as ih =>
    intro st st' h
    simp only [SyncSt.run, Option.bind_eq_some_iff] at h
    obtain ⟨m, h1, h2⟩ := h
    have := step_weight h1
    have := ih h2
    simp only [List.length_cons]; omega

/-! ### What holds at all times -/

/-- As long as every place has been enqueued with `sync_ref`. -/
structure Counted (st : SyncSt) (owed : Bool) : Prop where
  tidy : Tidy owed st.prog
  refs : st.refs = npend st.jobs + (if owed then 1 else 0)
  sync : st.sync = false → owed = false ∧ st.jobs = []
  wait : st.waiting = true → owed = false ∧
    (st.refs ≠ 0 ∨ ∃ j ∈ st.jobs, j.isSignalling = true)

def SyncInv (st : SyncSt) : Prop :=
  (∃ owed, Counted st owed) ∨ (st.waiting = false ∧ ∀ o ∈ st.prog, o = .push)

theorem npend_append (a b : List QJob) : npend (a ++ b) = npend a + npend b := List.countP_append

theorem mem_set_self {js : List QJob} {i : Nat} {j j' : QJob} (h : js[i]? = some j) :
    j' ∈ js.set i j' := by
  have : i < js.length := (List.getElem?_eq_some_iff.1 h).1
  exact List.mem_iff_getElem?.2 ⟨i, by rw [List.getElem?_set_self this]⟩

/-- A job that does not change is still there. -/
theorem mem_set_other {js : List QJob} {i : Nat} {j j' x : QJob} (h : js[i]? = some j)
    (hx : x ∈ js) (hne : x ≠ j) : x ∈ js.set i j' := by
  obtain ⟨k, hk⟩ := List.mem_iff_getElem?.1 hx
  refine List.mem_iff_getElem?.2 ⟨k, ?_⟩
  have hik : i ≠ k := by
    intro e; subst e
    rw [h] at hk; cases hk; exact hne rfl
  rw [List.getElem?_set_ne hik, hk]

theorem jobs_ne {js : List QJob} {i : Nat} {j : QJob} (h : js[i]? = some j) : js ≠ [] := by
  intro e; rw [e] at h; cases h

theorem counted_unref {st : SyncSt} {owed : Bool} {i : Nat} {j : QJob} (b : Bool)
    (h : Counted st owed) (hj : st.jobs[i]? = some j) (hp : j.pending = true) :
    Counted (st.unrefJob i b) owed := by
  have hs : st.sync = true := by
    cases e : st.sync with
    | true => rfl
    | false => exact absurd (h.sync e).2 (jobs_ne hj)
  have hn := npend_set st.jobs i (if st.refs - 1 = 0 then .signalling b else .done b) hj
  have hr := h.refs
  have hq : (if st.refs - 1 = 0 then QJob.signalling b else QJob.done b).pending = false := by
    split <;> rfl
  rw [hp, hq] at hn
  simp only [if_true, Bool.false_eq_true, if_false] at hn
  unfold SyncSt.unrefJob
  rw [hs]
  simp only [Bool.not_true, Bool.false_eq_true, if_false]
  refine ⟨h.tidy, ?_, ?_, ?_⟩
  · show st.refs - 1 = _
    rw [hr] at hn ⊢
    dsimp only
    omega
  · intro e; exact nomatch e
  · intro hw
    refine ⟨(h.wait hw).1, ?_⟩
    by_cases h0 : st.refs - 1 = 0
    · right
      refine ⟨.signalling b, ?_, rfl⟩
      rw [if_pos h0]
      exact mem_set_self hj
    · exact Or.inl h0

theorem counted_same {st : SyncSt} {owed : Bool} {i : Nat} {j j' : QJob}
    (h : Counted st owed) (hj : st.jobs[i]? = some j) (hp : j.pending = true)
    (hp' : j'.pending = true) : Counted { st with jobs := st.jobs.set i j' } owed := by
  have hn := npend_set st.jobs i j' hj
  rw [hp, hp'] at hn
  refine ⟨h.tidy, ?_, ?_, ?_⟩
  · have := h.refs
    dsimp only
    simp only [if_true] at hn
    omega
  · intro e; exact absurd (h.sync e).2 (jobs_ne hj)
  · intro hw
    obtain ⟨h1, h2⟩ := h.wait hw
    refine ⟨h1, h2.imp id ?_⟩
    rintro ⟨x, hx, hs⟩
    refine ⟨x, mem_set_other hj hx ?_, hs⟩
    intro e; subst e
    cases x <;> first | (cases hs; done) | (cases hp; done)

theorem inv_step {st st' : SyncSt} {a : SyncAct} (hI : SyncInv st) (ha : ∀ i, a ≠ .drop i)
    (h : st.step a = some st') : SyncInv st' := by
  rcases hI with ⟨owed, hC⟩ | ⟨hw, hp⟩
  · cases a with
    | drop i => exact absurd rfl (ha i)
    | main =>
      simp only [SyncSt.step, SyncSt.mainStep] at h
      split at h
      · cases h
      rename_i hnw
      have hnw : st.waiting = false := by simpa using hnw
      have ht := hC.tidy
      have hr := hC.refs
      split at h
      · cases h
      · rename_i p hp
        rw [hp] at ht
        cases h
        cases owed with
        | true => exact absurd ht (by simp [Tidy])
        | false =>
          left
          refine ⟨true, ?_, ?_, ?_, ?_⟩
          · simpa [Tidy] using ht
          · dsimp only; simp only [if_true]; simp at hr; omega
          · intro e; cases e
          · intro e; cases hnw.symm.trans e
      · rename_i p hp
        rw [hp] at ht
        cases h
        cases owed with
        | true =>
          left
          refine ⟨false, ?_, ?_, ?_, ?_⟩
          · simpa [Tidy] using ht
          · dsimp only; rw [npend_append]; simp at hr; rw [hr]; simp [npend, QJob.pending]
          · intro e; cases (hC.sync e).1
          · intro e; cases hnw.symm.trans e
        | false =>
          right
          refine ⟨hnw, ?_⟩
          simp only [Tidy] at ht
          exact fun o ho => ht o (List.mem_cons_of_mem _ ho)
      · rename_i p hp
        rw [hp] at ht
        cases owed with
        | false =>
          simp only [Tidy] at ht
          cases ht .unref (List.mem_cons_self ..)
        | true =>
          have hs : st.sync = true := by
            cases e : st.sync with
            | true => rfl
            | false => cases (hC.sync e).1
          rw [hs] at h
          simp only [Bool.not_true, Bool.false_eq_true, if_false, Option.some.injEq] at h
          subst h
          left
          refine ⟨false, ?_, ?_, ?_, ?_⟩
          · simpa [Tidy] using ht
          · dsimp only; simp at hr; simp; omega
          · intro e; exact nomatch e
          · intro e; cases hnw.symm.trans e
      · rename_i p hp
        rw [hp] at ht
        cases owed with
        | true => exact absurd ht (by simp [Tidy])
        | false =>
          have ht : Tidy false p := by simpa [Tidy] using ht
          left
          split at h
          · cases h
            exact ⟨false, ht, hr, hC.sync, fun e => by cases hnw.symm.trans e⟩
          · rename_i hc
            cases h
            exact ⟨false, ht, hr, hC.sync, fun _ => ⟨rfl, Or.inl fun e => hc (Or.inr e)⟩⟩
    | work i =>
      left
      simp only [SyncSt.step] at h
      split at h
      · rename_i hj; cases h
        exact ⟨owed, counted_same hC hj rfl rfl⟩
      · rename_i hj; cases h
        exact ⟨owed, counted_same hC hj rfl rfl⟩
      · rename_i hj; cases h
        exact ⟨owed, counted_unref true hC hj rfl⟩
      · rename_i b hj; cases h
        have hn := npend_set st.jobs i (.done b) hj
        refine ⟨owed, hC.tidy, ?_, ?_, ?_⟩
        · have := hC.refs
          simp [QJob.pending] at hn
          dsimp only
          omega
        · intro e; exact absurd (hC.sync e).2 (jobs_ne hj)
        · intro e; cases e
      · cases h
    | flush i =>
      left
      simp only [SyncSt.step] at h
      split at h
      · rename_i hj; cases h
        exact ⟨owed, counted_unref false hC hj rfl⟩
      · cases h
  · right
    cases a with
    | drop i => exact absurd rfl (ha i)
    | main =>
      simp only [SyncSt.step, SyncSt.mainStep, hw, Bool.false_eq_true, if_false] at h
      split at h
      · cases h
      all_goals rename_i p he; rw [he] at hp
      · cases hp _ (List.mem_cons_self ..)
      · cases h
        exact ⟨rfl, fun o ho => hp o (List.mem_cons_of_mem _ ho)⟩
      · cases hp _ (List.mem_cons_self ..)
      · cases hp _ (List.mem_cons_self ..)
    | work i =>
      simp only [SyncSt.step, SyncSt.unrefJob] at h
      split at h
      all_goals try split at h
      all_goals try (cases h; exact ⟨hw, hp⟩)
      · cases h; exact ⟨rfl, hp⟩
      · cases h
    | flush i =>
      simp only [SyncSt.step, SyncSt.unrefJob] at h
      split at h
      · split at h <;> (cases h; exact ⟨hw, hp⟩)
      · cases h

theorem inv_run {acts : List SyncAct} : ∀ {st st' : SyncSt}, SyncInv st →
    (∀ a ∈ acts, ∀ i, a ≠ .drop i) → st.run acts = some st' → SyncInv st' := by
  induction acts with
  | nil => intro st st' hI _ h; cases h; exact hI
  | cons a as ih =>
    intro st st' hI ha h
    simp only [SyncSt.run, Option.bind_eq_some_iff] at h
    obtain ⟨m, h1, h2⟩ := h
    exact ih (inv_step hI (ha a (List.mem_cons_self ..)) h1)
      (fun b hb => ha b (List.mem_cons_of_mem _ hb)) h2

theorem inv_init {p : List MainOp} (hp : Tidy false p) : SyncInv { prog := p } :=
  Or.inl ⟨false, hp, rfl, fun _ => ⟨rfl, rfl⟩, fun h => by cases h⟩

theorem tidy_sends : ∀ {ds : List Bool} {p : List MainOp}, Tidy false p →
    Tidy false (sends ds ++ p)
  | [], _, h => h
  | true :: ds, p, h => by
    simp only [sends, List.cons_append, Tidy]; exact tidy_sends h
  | false :: ds, p, h => by
    simp only [sends, List.cons_append, Tidy]; exact tidy_sends h

theorem tidy_async (n : Nat) : Tidy false (asyncSends n) := by
  cases n with
  | zero => intro o ho; cases ho
  | succ n =>
    simp only [asyncSends, List.replicate_succ, Tidy]
    intro o ho
    rcases List.mem_cons.1 ho with h | h
    · exact h
    · exact (List.mem_replicate.1 h).2

/-- A pending or signalling job can always go on. -/
theorem work_possible {st : SyncSt} {j : QJob} (hm : j ∈ st.jobs)
    (h : j.pending = true ∨ j.isSignalling = true) : ∃ i st', st.step (.work i) = some st' := by
  obtain ⟨i, hi⟩ := List.mem_iff_getElem?.1 hm
  refine ⟨i, ?_⟩
  simp only [SyncSt.step, hi]
  cases j <;> first | exact ⟨_, rfl⟩ | (exfalso; rcases h with h | h <;> cases h)

/-! ### What has been processed when the owner goes on -/

/-- All jobs are on their way or have been processed. -/
def NoneDropped (st : SyncSt) : Prop := ∀ j ∈ st.jobs, j.pending = true ∨ j.served = true

/-- The first `n` jobs have been processed. -/
def ServedTo (n : Nat) (st : SyncSt) : Prop :=
  ∀ i, i < n → ∃ j, st.jobs[i]? = some j ∧ j.served = true

theorem mem_set {js : List QJob} {i : Nat} {x j' : QJob} (h : x ∈ js.set i j') : x ∈ js ∨ x = j' :=
  List.mem_or_eq_of_mem_set h

theorem unref_jobs (st : SyncSt) (i : Nat) (b : Bool) :
    ∃ j', (st.unrefJob i b).jobs = st.jobs.set i j' ∧ j'.served = b := by
  unfold SyncSt.unrefJob
  split
  · exact ⟨_, rfl, rfl⟩
  · refine ⟨_, rfl, ?_⟩
    split <;> rfl

/-- How the jobs change in a step that drops nothing. -/
theorem plain_jobs {st st' : SyncSt} {a : SyncAct} (ha : a.plain = true)
    (h : st.step a = some st') :
    st'.jobs = st.jobs ∨ st'.jobs = st.jobs ++ [.queued] ∨
      ∃ i j j', st.jobs[i]? = some j ∧ st'.jobs = st.jobs.set i j' ∧
        (j.pending = true ∧ (j'.pending = true ∨ j'.served = true) ∨
          j.pending = false ∧ j'.served = j.served) := by
  cases a with
  | drop i => cases ha
  | flush i => cases ha
  | main =>
    simp only [SyncSt.step, SyncSt.mainStep] at h
    split at h
    · cases h
    split at h
    · cases h
    · cases h; exact Or.inl rfl
    · cases h; exact Or.inr (Or.inl rfl)
    · split at h <;> (cases h; exact Or.inl rfl)
    · split at h <;> (cases h; exact Or.inl rfl)
  | work i =>
    right; right
    simp only [SyncSt.step] at h
    split at h
    · rename_i hj; cases h
      exact ⟨i, _, _, hj, rfl, Or.inl ⟨rfl, Or.inl rfl⟩⟩
    · rename_i hj; cases h
      exact ⟨i, _, _, hj, rfl, Or.inl ⟨rfl, Or.inl rfl⟩⟩
    · rename_i hj; cases h
      obtain ⟨j', h1, h2⟩ := unref_jobs st i true
      exact ⟨i, _, j', hj, h1, Or.inl ⟨rfl, Or.inr h2⟩⟩
    · rename_i b hj; cases h
      exact ⟨i, _, _, hj, rfl, Or.inr ⟨rfl, rfl⟩⟩
    · cases h

theorem none_dropped_step {st st' : SyncSt} {a : SyncAct} (ha : a.plain = true)
    (h : st.step a = some st') (hn : NoneDropped st) : NoneDropped st' := by
  intro x hx
  rcases plain_jobs ha h with e | e | ⟨i, j, j', hj, e, hc⟩
  · rw [e] at hx; exact hn x hx
  · rw [e] at hx
    rcases List.mem_append.1 hx with hx | hx
    · exact hn x hx
    · rw [List.mem_singleton.1 hx]; exact Or.inl rfl
  · rw [e] at hx
    rcases mem_set hx with hx | rfl
    · exact hn x hx
    · rcases hc with ⟨-, hc⟩ | ⟨h1, h2⟩
      · exact hc
      · right
        rw [h2]
        rcases hn j (List.mem_of_getElem? hj) with h3 | h3
        · cases h1.symm.trans h3
        · exact h3

theorem served_step {st st' : SyncSt} {a : SyncAct} {n : Nat} (ha : a.plain = true)
    (h : st.step a = some st') (hs : ServedTo n st) : ServedTo n st' := by
  intro k hk
  obtain ⟨x, hx, hxs⟩ := hs k hk
  rcases plain_jobs ha h with e | e | ⟨i, j, j', hj, e, hc⟩
  · exact ⟨x, by rw [e, hx], hxs⟩
  · refine ⟨x, ?_, hxs⟩
    rw [e, List.getElem?_append_left (List.getElem?_eq_some_iff.1 hx).1, hx]
  · by_cases hik : i = k
    · subst hik
      rw [hj] at hx; cases hx
      refine ⟨j', by rw [e, List.getElem?_set_self (List.getElem?_eq_some_iff.1 hj).1], ?_⟩
      rcases hc with ⟨h1, -⟩ | ⟨-, h2⟩
      · cases x <;> first | (cases h1; done) | (cases hxs; done)
      · rw [h2]; exact hxs
    · exact ⟨x, by rw [e, List.getElem?_set_ne hik, hx], hxs⟩

/-- If nobody has to call `sync_unref` any more, everything has been processed. -/
theorem all_served {st : SyncSt} (hn : NoneDropped st) (h0 : npend st.jobs = 0) :
    ServedTo st.jobs.length st := by
  intro i hi
  refine ⟨st.jobs[i], List.getElem?_eq_getElem hi, ?_⟩
  rcases hn _ (List.getElem_mem hi) with h | h
  · exact absurd h (List.countP_eq_zero.1 h0 _ (List.getElem_mem hi))
  · exact h

/-- A signal is only pending when nobody has to call `sync_unref` any more. -/
def SignalLast (st : SyncSt) : Prop :=
  ∀ j ∈ st.jobs, j.isSignalling = true → st.refs = 0

/-- The owner at a `sync` that is followed by `q`, inside it, and after it. -/
inductive AtWait (q : List MainOp) (n : Nat) (st : SyncSt) : Prop where
  | before (hp : st.prog = .wait :: q) (hw : st.waiting = false) (hl : st.jobs.length = n)
      (hs : SignalLast st)
  | inside (hp : st.prog = q) (hw : st.waiting = true) (hl : st.jobs.length = n)
      (hs : SignalLast st)
  | after (hs : ServedTo n st)

/-- A step of a sender keeps `SignalLast`. -/
theorem signal_last_step {st st' : SyncSt} {i : Nat} (hs : SignalLast st)
    (hr : st.refs = npend st.jobs)
    (h : st.step (.work i) = some st') :
    SignalLast st' ∧ st'.prog = st.prog ∧ st'.jobs.length = st.jobs.length ∧
      (st'.waiting = st.waiting ∨ ∃ j ∈ st.jobs, j.isSignalling = true) := by
  simp only [SyncSt.step] at h
  split at h
  · cases h
    refine ⟨?_, rfl, List.length_set .., Or.inl rfl⟩
    intro x hx hx'
    rcases mem_set hx with hx | rfl
    · exact hs x hx hx'
    · cases hx'
  · cases h
    refine ⟨?_, rfl, List.length_set .., Or.inl rfl⟩
    intro x hx hx'
    rcases mem_set hx with hx | rfl
    · exact hs x hx hx'
    · cases hx'
  · rename_i hj; cases h
    unfold SyncSt.unrefJob
    split
    · refine ⟨?_, rfl, List.length_set .., Or.inl rfl⟩
      intro x hx hx'
      rcases mem_set hx with hx | rfl
      · exact hs x hx hx'
      · cases hx'
    · refine ⟨?_, rfl, List.length_set .., Or.inl rfl⟩
      intro x hx hx'
      show st.refs - 1 = 0
      rcases mem_set hx with hx | rfl
      · have h0 := hs x hx hx'
        have : npend st.jobs = 0 := by omega
        exact absurd rfl (List.countP_eq_zero.1 this _ (List.mem_of_getElem? hj))
      · split at hx'
        · assumption
        · cases hx'
  · rename_i b hj; cases h
    refine ⟨?_, rfl, List.length_set .., Or.inr ⟨_, List.mem_of_getElem? hj, rfl⟩⟩
    intro x hx hx'
    rcases mem_set hx with hx | rfl
    · exact hs x hx hx'
    · cases hx'
  · cases h

/-- When the owner is at or inside a `sync`, the count is the number of pending jobs. -/
theorem counted_at {st : SyncSt} (hI : SyncInv st)
    (h : (∃ q, st.prog = .wait :: q) ∨ st.waiting = true) :
    st.refs = npend st.jobs ∧ (st.sync = false → st.jobs = []) := by
  rcases hI with ⟨owed, hC⟩ | ⟨hw, hp⟩
  · have ho : owed = false := by
      rcases h with ⟨q, h⟩ | h
      · cases owed with
        | false => rfl
        | true =>
          have := hC.tidy
          rw [h] at this
          exact absurd this (by simp [Tidy])
      · exact (hC.wait h).1
    subst ho
    have := hC.refs
    simp only [Bool.false_eq_true, if_false] at this
    exact ⟨by omega, fun e => (hC.sync e).2⟩
  · rcases h with ⟨q, h⟩ | h
    · rw [h] at hp
      cases hp _ (List.mem_cons_self ..)
    · cases hw.symm.trans h

theorem at_wait_step {st st' : SyncSt} {a : SyncAct} {q : List MainOp} {n : Nat}
    (hI : SyncInv st) (hn : NoneDropped st) (ha : a.plain = true) (h : st.step a = some st')
    (hA : AtWait q n st) : AtWait q n st' := by
  cases hA with
  | after hs => exact .after (served_step ha h hs)
  | before hp hw hl hs =>
    obtain ⟨hr, he⟩ := counted_at hI (Or.inl ⟨q, hp⟩)
    cases a with
    | drop i => cases ha
    | flush i => cases ha
    | work i =>
      obtain ⟨h1, h2, h3, h4⟩ := signal_last_step hs hr h
      refine .before (h2.trans hp) ?_ (h3.trans hl) h1
      rcases h4 with h4 | -
      · exact h4.trans hw
      · simp only [SyncSt.step] at h
        split at h
        all_goals try cases h
        · exact hw
        · exact hw
        · unfold SyncSt.unrefJob
          split <;> exact hw
        · rfl
    | main =>
      simp only [SyncSt.step, SyncSt.mainStep, hw, hp, Bool.false_eq_true, if_false] at h
      split at h
      · rename_i hc
        cases h
        refine .after ?_
        subst hl
        refine all_served (st := { st with prog := q, waiting := false }) hn ?_
        rcases hc with hc | hc
        · have : st.sync = false := by simpa using hc
          show npend st.jobs = 0
          rw [he this]; rfl
        · show npend st.jobs = 0
          omega
      · cases h
        exact .inside rfl rfl hl hs
  | inside hp hw hl hs =>
    obtain ⟨hr, he⟩ := counted_at hI (Or.inr hw)
    cases a with
    | drop i => cases ha
    | flush i => cases ha
    | main => simp only [SyncSt.step, SyncSt.mainStep, hw, if_true] at h; cases h
    | work i =>
      obtain ⟨h1, h2, h3, h4⟩ := signal_last_step hs hr h
      rcases h4 with h4 | ⟨j, hj, hj'⟩
      · exact .inside (h2.trans hp) (h4.trans hw) (h3.trans hl) h1
      · have h0 := hs j hj hj'
        refine .after (served_step ha h ?_)
        subst hl
        exact all_served hn (by omega)

theorem at_wait_run {acts : List SyncAct} {q : List MainOp} {n : Nat} : ∀ {st st' : SyncSt},
    SyncInv st → NoneDropped st → (∀ a ∈ acts, a.plain = true) → st.run acts = some st' →
    AtWait q n st → AtWait q n st' := by
  induction acts with
  | nil => intro st st' _ _ _ h hA; cases h; exact hA
  | cons a as ih =>
    intro st st' hI hn ha h hA
    simp only [SyncSt.run, Option.bind_eq_some_iff] at h
    obtain ⟨m, h1, h2⟩ := h
    have hpa := ha a (List.mem_cons_self ..)
    exact ih (inv_step hI (by intro i e; subst e; cases hpa) h1) (none_dropped_step hpa h1 hn)
      (fun b hb => ha b (List.mem_cons_of_mem _ hb)) h2 (at_wait_step hI hn hpa h1 hA)

theorem none_dropped_run {acts : List SyncAct} : ∀ {st st' : SyncSt}, NoneDropped st →
    (∀ a ∈ acts, a.plain = true) → st.run acts = some st' → NoneDropped st' := by
  induction acts with
  | nil => intro st st' hn _ h; cases h; exact hn
  | cons a as ih =>
    intro st st' hn ha h
    simp only [SyncSt.run, Option.bind_eq_some_iff] at h
    obtain ⟨m, h1, h2⟩ := h
    exact ih (none_dropped_step (ha a (List.mem_cons_self ..)) h1 hn)
      (fun b hb => ha b (List.mem_cons_of_mem _ hb)) h2

/-- How the owner's remaining work and the number of jobs change in a step: not at all, or the
owner does what is next. -/
theorem step_prog {st st' : SyncSt} {a : SyncAct} (h : st.step a = some st') :
    (st'.prog = st.prog ∧ st'.jobs.length = st.jobs.length ∧
      (st'.waiting = st.waiting ∨ st'.waiting = false)) ∨
    (st.waiting = false ∧ ∃ o, st.prog = o :: st'.prog ∧
      st'.jobs.length = st.jobs.length + (if o = .push then 1 else 0) ∧
      (o ≠ .wait → st'.waiting = false)) := by
  cases a with
  | main =>
    right
    simp only [SyncSt.step, SyncSt.mainStep] at h
    split at h
    · cases h
    rename_i hw
    have hw : st.waiting = false := by simpa using hw
    refine ⟨hw, ?_⟩
    split at h
    · cases h
    · rename_i hp; cases h; exact ⟨_, hp, rfl, fun _ => hw⟩
    · rename_i hp; cases h; exact ⟨_, hp, by simp, fun _ => hw⟩
    · rename_i hp
      split at h <;> (cases h; exact ⟨_, hp, rfl, fun _ => hw⟩)
    · rename_i hp
      split at h <;> (cases h; exact ⟨_, hp, rfl, fun h' => absurd rfl h'⟩)
  | work i =>
    left
    simp only [SyncSt.step, SyncSt.unrefJob] at h
    split at h
    all_goals try split at h
    all_goals cases h
    all_goals simp
  | drop i =>
    left
    simp only [SyncSt.step] at h
    split at h <;> cases h
    simp
  | flush i =>
    left
    simp only [SyncSt.step, SyncSt.unrefJob] at h
    split at h
    all_goals try split at h
    all_goals cases h
    all_goals simp

/-- An owner that has got past a `sync` was at that `sync` before, with everything enqueued that
comes before it. -/
theorem reach_wait {acts : List SyncAct} {q : List MainOp} : ∀ {st st' : SyncSt}
    {pre : List MainOp}, st.prog = pre ++ .wait :: q → st.waiting = false →
    (∀ o ∈ pre, o ≠ .wait) → st.run acts = some st' → st'.prog.length ≤ q.length →
    ∃ as bs m, acts = as ++ bs ∧ st.run as = some m ∧ m.run bs = some st' ∧
      m.prog = .wait :: q ∧ m.waiting = false ∧
      m.jobs.length = st.jobs.length + pre.count .push := by
  induction acts with
  | nil =>
    intro st st' pre hp _ _ h hl
    cases h
    rw [hp] at hl
    simp at hl
    omega
  | cons a as ih =>
    intro st st' pre hp hw hpre h hl
    cases pre with
    | nil => exact ⟨[], a :: as, st, rfl, rfl, h, hp, hw, by simp⟩
    | cons o pre =>
      simp only [SyncSt.run, Option.bind_eq_some_iff] at h
      obtain ⟨m, h1, h2⟩ := h
      rcases step_prog h1 with ⟨e1, e2, e3⟩ | ⟨-, o', e1, e2, e3⟩
      · obtain ⟨as', bs, m', r1, r2, r3, r4, r5, r6⟩ := ih (e1.trans hp)
          (by rcases e3 with e3 | e3
              · exact e3.trans hw
              · exact e3) hpre h2 hl
        exact ⟨a :: as', bs, m', by rw [r1]; rfl, by simp only [SyncSt.run, h1]; exact r2, r3, r4,
          r5, by rw [r6, e2]⟩
      · rw [hp] at e1
        simp only [List.cons_append, List.cons.injEq] at e1
        obtain ⟨e0, e1⟩ := e1
        subst e0
        obtain ⟨as', bs, m', r1, r2, r3, r4, r5, r6⟩ := ih e1.symm
          (e3 (hpre _ (List.mem_cons_self ..)))
          (fun x hx => hpre x (List.mem_cons_of_mem _ hx)) h2 hl
        refine ⟨a :: as', bs, m', by rw [r1]; rfl, by simp only [SyncSt.run, h1]; exact r2, r3, r4,
          r5, ?_⟩
        rw [r6, e2, List.count_cons]
        simp only [beq_iff_eq]
        omega

theorem sends_no_wait : ∀ (ds : List Bool), ∀ o ∈ sends ds, o ≠ .wait
  | [], o, h => by cases h
  | true :: ds, o, h => by
    simp only [sends, List.mem_cons] at h
    rcases h with rfl | rfl | h
    · exact fun e => nomatch e
    · exact fun e => nomatch e
    · exact sends_no_wait ds o h
  | false :: ds, o, h => by
    simp only [sends, List.mem_cons] at h
    rcases h with rfl | rfl | h
    · exact fun e => nomatch e
    · exact fun e => nomatch e
    · exact sends_no_wait ds o h

theorem sends_count : ∀ (ds : List Bool), (sends ds).count .push = ds.count true
  | [] => rfl
  | true :: ds => by simp [sends, sends_count ds]
  | false :: ds => by simp [sends, sends_count ds]

end Flare
