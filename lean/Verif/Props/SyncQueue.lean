import Verif.Lemmas.SyncQueue

/-! Property C43: waiting for queued requests. -/
namespace Flare

/-- The callers: forwarding, replication, and both kinds of broadcast keep every `sync_ref`
together with its `enqueue`. -/
theorem callers_tidy (slaves preparing prior : List Bool) (n : Nat) (ok : Bool) :
    Tidy false (forwardProg ok) ∧ Tidy false (replicateProg slaves preparing) ∧
      Tidy false (broadcastProg prior n) := by
  refine ⟨?_, ?_, ?_⟩
  · exact tidy_sends (ds := [ok]) (by cases ok <;> simp [Tidy])
  · refine tidy_sends ?_
    simp only [Tidy]
    have := tidy_sends (ds := preparing) (p := []) (by simp [Tidy])
    rwa [List.append_nil] at this
  · unfold broadcastProg
    rw [List.append_assoc]
    refine tidy_sends ?_
    split
    · simpa [Tidy] using tidy_async n
    · exact tidy_async n

/-- C43.  No wake-up is lost.  Whatever the number of destinations and however the owner and the
senders are scheduled, the owner is finished or somebody can go on, and there is a bound on the
number of steps; so the owner gets to its end in every schedule.  Senders may exit and clean
their queues; what must not happen is a sender that dequeues the object and drops it. -/
theorem C43_woken {p : List MainOp} (hp : Tidy false p) {acts : List SyncAct}
    (ha : ∀ a ∈ acts, ∀ i, a ≠ .drop i) {st : SyncSt}
    (h : SyncSt.run { prog := p } acts = some st) :
    (st.finished ∨ ∃ a st', a.plain = true ∧ st.step a = some st') ∧
      acts.length ≤ SyncSt.weight { prog := p } := by
  refine ⟨?_, by have := run_weight h; omega⟩
  have hI := inv_run (inv_init hp) ha h
  by_cases hw : st.waiting = true
  · right
    rcases hI with ⟨owed, hC⟩ | ⟨hw', -⟩
    · obtain ⟨ho, hc⟩ := hC.wait hw
      have hr := hC.refs
      subst ho
      simp only [Bool.false_eq_true, if_false] at hr
      rcases hc with hc | ⟨j, hj, hs⟩
      · have : 0 < npend st.jobs := by omega
        obtain ⟨j, hj, hp⟩ := List.countP_pos_iff.1 this
        obtain ⟨i, st', hs⟩ := work_possible hj (Or.inl hp)
        exact ⟨_, st', rfl, hs⟩
      · obtain ⟨i, st', hs⟩ := work_possible hj (Or.inr hs)
        exact ⟨_, st', rfl, hs⟩
    · cases hw'.symm.trans hw
  · have hw : st.waiting = false := by simpa using hw
    cases he : st.prog with
    | nil => exact Or.inl ⟨he, hw⟩
    | cons o q =>
      right
      refine ⟨.main, ?_⟩
      simp only [SyncSt.step, SyncSt.mainStep, hw, he, Bool.false_eq_true, if_false]
      cases o with
      | ref => exact ⟨_, rfl, rfl⟩
      | push => exact ⟨_, rfl, rfl⟩
      | unref => dsimp only; split <;> exact ⟨_, rfl, rfl⟩
      | wait => dsimp only; split <;> exact ⟨_, rfl, rfl⟩

/-- Three destinations, one of which refuses; the owner waits and one sender is still busy. -/
example : (SyncSt.run { prog := replicateProg [true, false, true] [] }
    [.main, .main, .main, .main, .main, .main, .main, .work 0, .work 0, .work 0, .work 1]).map
      (fun st => (st.waiting, st.refs, st.jobs)) =
    some (true, 1, [.done true, .running]) := by decide +kernel

/-- C43.  The owner returns only after the request has been processed everywhere, if no sender is
about to send its signal when the owner calls `sync`, unless nobody has to be waited for any
more.  Missing: a signal that is already on its way, see `C43_early_return`. -/
theorem C43_served_partial {p q : List MainOp} (hp : Tidy false p) {as bs : List SyncAct}
    (ha : ∀ a ∈ as, a.plain = true) (hb : ∀ b ∈ bs, b.plain = true) {m st : SyncSt}
    (hm : SyncSt.run { prog := p } as = some m) (hq : m.prog = .wait :: q)
    (hw : m.waiting = false) (hs : ∀ j ∈ m.jobs, j.isSignalling = true → m.refs = 0)
    (h : m.run bs = some st) (hpass : st.passed q) :
    ∀ i, i < m.jobs.length → ∃ j, st.jobs[i]? = some j ∧ j.served = true := by
  have hI := inv_run (inv_init hp)
    (fun a h' i e => by subst e; cases ha _ h') hm
  have hn := none_dropped_run (st := { prog := p }) (fun j hj => by cases hj) ha hm
  have hA := at_wait_run hI hn hb h (.before (n := m.jobs.length) hq hw rfl hs)
  cases hA with
  | after hs => exact hs
  | before hp' _ _ _ =>
    have := hpass.1
    rw [hp'] at this
    simp at this
    omega
  | inside hp' hw' _ _ =>
    cases (hpass.2 (by rw [hp'])).symm.trans hw'

/-- C43.  In particular, when at most one sender has taken the request - a forwarded read or
write, or a synchronous replication to at most one slave - the owner returns only after that
sender has processed it, in every schedule. -/
theorem C43_one {slaves preparing : List Bool} (h1 : slaves.count true ≤ 1)
    {acts : List SyncAct} (ha : ∀ a ∈ acts, a.plain = true) {st : SyncSt}
    (h : SyncSt.run { prog := replicateProg slaves preparing } acts = some st)
    (hpass : st.passed (sends preparing)) :
    ∀ i, i < slaves.count true → ∃ j, st.jobs[i]? = some j ∧ j.served = true := by
  have hp := (callers_tidy slaves preparing [] 0 true).2.1
  obtain ⟨as, bs, m, e, r1, r2, r3, r4, r5⟩ := reach_wait (q := sends preparing)
    (pre := sends slaves) rfl rfl (sends_no_wait slaves) h hpass.1
  subst e
  have hl : m.jobs.length = slaves.count true := by
    rw [r5, sends_count]; simp
  have ha1 : ∀ a ∈ as, a.plain = true := fun a h' => ha a (List.mem_append_left _ h')
  have hI := inv_run (inv_init hp)
    (fun a h' i e => by subst e; cases ha1 _ h') r1
  have hr := (counted_at hI (Or.inl ⟨_, r3⟩)).1
  have := C43_served_partial hp ha1 (fun a h' => ha a (List.mem_append_right _ h')) r1 r3 r4
    (by
      intro j hj hj'
      have h1' : m.jobs.length ≤ 1 := by omega
      obtain ⟨j', hj1⟩ : ∃ j', m.jobs = [j'] := by
        cases hm : m.jobs with
        | nil => rw [hm] at hj; cases hj
        | cons a l =>
          rw [hm] at h1'
          cases l with
          | nil => exact ⟨a, rfl⟩
          | cons b l => simp at h1'
      rw [hj1, List.mem_singleton] at hj
      subst hj
      rw [hr, hj1]
      cases j <;> first | rfl | (cases hj'; done)) r2 hpass
  intro i hi
  exact this i (by omega)

/-- A forwarded request: after the `sync` it has been processed. -/
example : (SyncSt.run { prog := forwardProg true }
    [.main, .main, .work 0, .main, .work 0, .work 0, .work 0]) =
    some { prog := [], sync := true, refs := 0, jobs := [.done true] } := by decide +kernel

/-- C43 does not hold for two destinations.  The first sender is done before the second
destination has been added and is about to send its signal; the owner starts to wait for the
second one; the late signal wakes it, while the second sender has not even started. -/
theorem C43_early_return : ∃ acts st, (∀ a ∈ acts, a.plain = true) ∧
    SyncSt.run { prog := replicateProg [true, true] [] } acts = some st ∧ st.finished ∧
      st.refs = 1 ∧ st.jobs[1]? = some .queued :=
  ⟨[.main, .main, .work 0, .work 0, .work 0, .main, .main, .main, .work 0],
    { prog := [], sync := true, refs := 1, jobs := [.done true, .queued] },
    by decide, by decide +kernel, ⟨rfl, rfl⟩, rfl, rfl⟩

/-- C43, the preparing master is not waited for: it is enqueued after the `sync`, with a
`sync_ref` nobody looks at. -/
theorem C43_preparing_not_awaited : ∃ acts st, (∀ a ∈ acts, a.plain = true) ∧
    SyncSt.run { prog := replicateProg [] [true] } acts = some st ∧ st.finished ∧
      st.refs = 1 ∧ st.jobs = [.queued] :=
  ⟨[.main, .main, .main], { prog := [], sync := true, refs := 1, jobs := [.queued] },
    by decide, by decide +kernel, ⟨rfl, rfl⟩, rfl, rfl⟩

/-- C43, a sender that is shut down between dequeueing a request and processing it
(/repo/src/lib/handler_proxy.cc:91-95) leaves the owner waiting for ever: it waits, and no step
of any kind is possible. -/
theorem C43_shutdown_hangs : ∃ acts st,
    SyncSt.run { prog := forwardProg true } acts = some st ∧ st.waiting = true ∧
      ∀ a, st.step a = none := by
  refine ⟨[.main, .main, .main, .drop 0],
    { prog := [], waiting := true, sync := true, refs := 1, jobs := [.lost] },
    by decide +kernel, rfl, ?_⟩
  intro a
  cases a with
  | main => rfl
  | work i => cases i <;> rfl
  | drop i => cases i <;> rfl
  | flush i => cases i <;> rfl

/-- C43, a sender that exits wakes the owner for requests it has not sent. -/
theorem C43_exit_unserved : ∃ acts st,
    SyncSt.run { prog := forwardProg true } acts = some st ∧ st.finished ∧
      st.jobs = [.done false] :=
  ⟨[.main, .main, .main, .flush 0, .work 0],
    { prog := [], sync := true, refs := 0, jobs := [.done false] },
    by decide +kernel, ⟨rfl, rfl⟩, rfl⟩

/-- A forwarded request that no sender takes is over after two steps of its owner: there is nothing to wait for, and nobody else
can do anything. -/
theorem C43_refused (acts : List SyncAct) (st : SyncSt) (h : SyncSt.run { prog := forwardProg false } acts = some st) :
    acts.length ≤ 2 ∧ st.waiting = false ∧ st.jobs = [] ∧ (acts.length = 2 → st.finished) := by
  have no : ∀ (s : SyncSt) (a : SyncAct), s.jobs = [] → a ≠ .main → s.step a = none := by
    intro s a hs ha
    cases a with
    | main => exact absurd rfl ha
    | work i => simp [SyncSt.step, hs]
    | drop i => simp [SyncSt.step, hs]
    | flush i => simp [SyncSt.step, hs]
  have run : ∀ (s : SyncSt) (a : SyncAct) (as : List SyncAct), s.jobs = [] → s.run (a :: as) = some st →
      ∃ t, s.mainStep = some t ∧ t.run as = some st := by
    intro s a as hs hr
    by_cases ha : a = .main
    · subst ha
      simp only [SyncSt.run, SyncSt.step] at hr
      cases e : s.mainStep with
      | none => rw [e] at hr; cases hr
      | some t => rw [e] at hr; exact ⟨t, rfl, hr⟩
    · simp only [SyncSt.run, no s a hs ha] at hr
      cases hr
  cases acts with
  | nil => cases h; exact ⟨by simp, rfl, rfl, fun h => by simp at h⟩
  | cons a acts =>
    obtain ⟨s1, e1, h⟩ := run _ a acts rfl h
    cases e1
    cases acts with
    | nil => cases h; exact ⟨by simp, rfl, rfl, fun h => by simp at h⟩
    | cons b acts =>
      obtain ⟨s2, e2, h⟩ := run _ b acts rfl h
      cases e2
      cases acts with
      | nil => cases h; exact ⟨by simp, rfl, rfl, fun _ => ⟨rfl, rfl⟩⟩
      | cons c acts =>
        obtain ⟨s3, e3, -⟩ := run _ c acts rfl h
        cases e3

/-- It does end. -/
example : (SyncSt.run { prog := forwardProg false } [.main, .main]) = some { prog := [], sync := true, refs := 0 } := by
  decide +kernel

end Flare
