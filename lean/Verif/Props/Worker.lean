import Verif.Spec.Worker

/-! C75: threads of a pool run what they are given. -/
namespace Flare

/-- Nobody has called the thread, or the caller has not sent the signal. -/
def Work.Free (s : Work) : Prop :=
  s.trigger = false ∧ s.req = .none ∧ s.running = false ∧ s.queue = [] ∧
    ((s.boss = .none ∧ s.inPool = true ∧ s.inMap = false ∧ s.handler = none ∧ s.given = s.ran) ∨
     (s.boss = .popped ∧ s.inPool = false ∧ s.inMap = false ∧ s.handler = none ∧ s.given = s.ran) ∨
     (s.boss = .named ∧ s.inPool = false ∧ s.inMap = true ∧ s.handler = none ∧ s.given = s.ran) ∨
     (s.boss = .gave ∧ s.inPool = false ∧ s.inMap = true ∧ ∃ h, s.handler = some h ∧ s.given = s.ran ++ [h]))

/-- The signal has been sent, and the handler has not been started. -/
def Work.Fired (s : Work) (t : Bool) : Prop :=
  s.trigger = t ∧ s.req = .none ∧ s.running = false ∧ s.queue = [] ∧ s.boss = .none ∧ s.inPool = false ∧
    s.inMap = true ∧ ∃ h, s.handler = some h ∧ s.given = s.ran ++ [h]

/-- Between start and return to the pool. -/
def Work.On (s : Work) : Prop := s.boss = .none ∧ s.inPool = false ∧ s.given = s.ran

def Work.Ok (s : Work) : Prop :=
  match s.at_ with
  | .wait => s.Free ∨ s.Fired true
  | .cleaned _ true => s.Free ∨ s.Fired true
  | .asleep false => s.Free
  | .asleep true => s.Fired true
  | .woken => s.Fired false
  | .entry => s.Fired false
  | .busy h => s.On ∧ s.inMap = true ∧ s.running = true ∧ s.handler = some h ∧ ∀ q ∈ s.queue, q.goal = h
  | .ended => s.On ∧ s.inMap = true ∧ s.running = true
  | .idle => s.On ∧ s.inMap = true ∧ s.running = false
  | .after => s.On ∧ s.inMap = true ∧ s.running = false ∧ s.handler = none
  | .notify => s.On ∧ s.inMap = true ∧ s.running = false ∧ s.handler = none ∧ s.req = .graceful
  | .cleanTrigger _ => s.On ∧ s.inMap = true ∧ s.running = false ∧ s.handler = none ∧ s.req ≠ .force
  | .cleanReq _ => s.On ∧ s.inMap = true ∧ s.running = false ∧ s.handler = none ∧ s.req ≠ .force ∧ s.trigger = false
  | .cleanQueue _ => s.On ∧ s.inMap = true ∧ s.running = false ∧ s.handler = none ∧ s.req = .none ∧ s.trigger = false
  | .cleanMap _ => s.On ∧ s.inMap = true ∧ s.running = false ∧ s.handler = none ∧ s.req = .none ∧ s.trigger = false ∧
      s.queue = []
  | .cleanPool _ => s.On ∧ s.inMap = false ∧ s.running = false ∧ s.handler = none ∧ s.req = .none ∧ s.trigger = false ∧
      s.queue = []
  | .cleaned _ false => s.On ∧ s.running = false
  | .leave => s.On ∧ s.running = false
  | .dead => s.On ∧ s.running = false

theorem Work.ok_go (s s' : Work) (room : Bool) (h : s.Ok) (hs : s.go room = some s') : s'.Ok := by
  cases s with
  | mk at_ boss trigger req stopped running handler inMap inPool queue looking waiting enq given ran pushed out =>
  cases at_ with
  | asleep b => cases b <;> simp_all [Work.go, Work.Ok, Work.Fired] <;> (subst hs; simp_all)
  | cleaned c b =>
    cases b <;> simp only [Work.go, Option.some.injEq] at hs <;> subst hs <;>
      simp only [Work.Ok] at h ⊢ <;> simp_all [Work.Fired, Work.Free, Work.On]
    rcases h with h | h <;> simp [h.2.1, h]
  | wait =>
    simp only [Work.go, Option.some.injEq] at hs
    subst hs
    simp only [Work.Ok] at h
    rcases h with h | h
    · have := h.1
      simp only at this
      subst this
      exact h
    · have := h.1
      simp only at this
      subst this
      exact ⟨rfl, h.2⟩
  | busy x => simp [Work.go] at hs
  | dead => simp [Work.go] at hs
  | woken =>
    simp only [Work.go, Option.some.injEq] at hs
    subst hs
    have := h.2.1
    simp only at this
    subst this
    exact h
  | entry =>
    simp only [Work.go, Option.some.injEq] at hs
    obtain ⟨h1, h2, h3, h4, h5, h6, h7, x, h8, h9⟩ := h
    simp only at h1 h2 h3 h4 h5 h6 h7 h8 h9
    subst h8 hs
    simp only [Work.Ok, Work.On]
    simp_all
  | after =>
    simp only [Work.go, Option.some.injEq] at hs
    subst hs
    cases req <;> simp_all [Work.Ok, Work.On]
  | cleanMap c =>
    simp only [Work.go, Option.some.injEq] at hs
    have := h.2.1
    simp only at this
    subst this hs
    simp_all [Work.Ok, Work.On]
  | cleanPool c =>
    simp only [Work.go, Option.some.injEq] at hs
    subst hs
    cases room <;> simp_all [Work.Ok, Work.On, Work.Free]
  | cleanReq c =>
    simp only [Work.go, Option.some.injEq] at hs
    subst hs
    cases req <;> simp_all [Work.Ok, Work.On]
  | _ =>
    simp only [Work.go, Option.some.injEq] at hs
    subst hs
    simp_all [Work.Ok, Work.On]

theorem Work.ok_signal (s : Work) (x : Nat) (h : s.Ok) (hb : s.at_ = .busy x) : s.signal.Ok := by
  simp only [Work.Ok, Work.signal, hb] at h ⊢
  exact h

theorem Work.ok_step (s s' : Work) (a : WorkAct) (h : s.Ok) (ht : s.timely a) (hs : s.step a = some s') : s'.Ok := by
  cases a with
  | go room => exact Work.ok_go s s' room h hs
  | serve =>
    simp only [Work.step] at hs
    split at hs
    · rename_i x q qs hat hq
      simp only [Option.some.injEq] at hs
      subst hs
      simp only [Work.Ok, hat, hq, Work.On] at h ⊢
      exact ⟨h.1, h.2.1, h.2.2.1, h.2.2.2.1, fun q' hq' => h.2.2.2.2 q' (List.mem_cons_of_mem _ hq')⟩
    · cases hs
  | finish =>
    simp only [Work.step] at hs
    split at hs
    · rename_i x hat
      simp only [Option.some.injEq] at hs
      subst hs
      simp only [Work.Ok, hat, Work.On] at h ⊢
      exact ⟨h.1, h.2.1, h.2.2.1⟩
    · cases hs
  | pop =>
    simp only [Work.step] at hs
    split at hs
    · simp only [Option.some.injEq] at hs
      subst hs
      cases hat : s.at_ with
      | asleep b => cases b <;> simp_all [Work.Ok, Work.On, Work.Free, Work.Fired]
      | cleaned c b => cases b <;> simp_all [Work.Ok, Work.On, Work.Free, Work.Fired]
      | _ => simp_all [Work.Ok, Work.On, Work.Free, Work.Fired]
    · cases hs
  | name =>
    simp only [Work.step] at hs
    split at hs
    · simp only [Option.some.injEq] at hs
      subst hs
      cases hat : s.at_ with
      | asleep b => cases b <;> simp_all [Work.Ok, Work.On, Work.Free, Work.Fired]
      | cleaned c b => cases b <;> simp_all [Work.Ok, Work.On, Work.Free, Work.Fired]
      | _ => simp_all [Work.Ok, Work.On, Work.Free, Work.Fired]
    · cases hs
  | give x =>
    simp only [Work.step] at hs
    split at hs
    · simp only [Option.some.injEq] at hs
      subst hs
      cases hat : s.at_ with
      | asleep b => cases b <;> simp_all [Work.Ok, Work.On, Work.Free, Work.Fired]
      | cleaned c b => cases b <;> simp_all [Work.Ok, Work.On, Work.Free, Work.Fired]
      | _ => simp_all [Work.Ok, Work.On, Work.Free, Work.Fired]
    · cases hs
  | fire sync =>
    simp only [Work.step] at hs
    split at hs
    · simp only [Option.some.injEq] at hs
      subst hs
      cases hat : s.at_ with
      | asleep b => cases b <;> simp_all [Work.Ok, Work.On, Work.Free, Work.Fired, Work.signal]
      | cleaned c b => cases b <;> simp_all [Work.Ok, Work.On, Work.Free, Work.Fired, Work.signal]
      | _ => simp_all [Work.Ok, Work.On, Work.Free, Work.Fired, Work.signal]
    · cases hs
  | look =>
    simp only [Work.step] at hs
    split at hs
    · simp only [Option.some.injEq] at hs
      subst hs
      split <;> exact h
    · cases hs
  | mark g =>
    obtain ⟨x, hx⟩ := ht
    simp only [Work.step, Option.some.injEq] at hs
    subst hs
    simp only [Work.Ok, hx, Work.On] at h ⊢
    exact h
  | poke =>
    obtain ⟨x, hx⟩ := ht
    simp only [Work.step, Option.some.injEq] at hs
    subst hs
    exact s.ok_signal x h hx
  | ask q =>
    simp only [Work.step, Option.some.injEq] at hs
    subst hs
    split <;> exact h
  | push i =>
    obtain ⟨q, hq, hx⟩ := ht
    simp only [Work.step, hq, Option.some.injEq] at hs
    subst hs
    simp only [Work.Ok, hx, Work.On] at h ⊢
    refine ⟨h.1, h.2.1, h.2.2.1, h.2.2.2.1, fun q' hq' => ?_⟩
    rcases List.mem_append.1 hq' with h' | h'
    · exact h.2.2.2.2 q' h'
    · rw [List.mem_singleton.1 h']
  | spurious => exact ht.elim

theorem Work.ok_run (acts : List WorkAct) (s s' : Work) (h : s.Ok) (ht : s.Timely acts) (hs : s.run acts = some s') :
    s'.Ok := by
  induction acts generalizing s with
  | nil =>
    simp only [Work.run, Option.some.injEq] at hs
    exact hs ▸ h
  | cons a as ih =>
    simp only [Work.run, Option.bind_eq_some_iff] at hs
    obtain ⟨t, h1, h2⟩ := hs
    exact ih t (s.ok_step t a h ht.1 h1) (ht.2 t h1) h2

theorem Work.ok_start : ({} : Work).Ok :=
  Or.inl ⟨rfl, rfl, rfl, rfl, Or.inr (Or.inl ⟨rfl, rfl, rfl, rfl, rfl⟩)⟩

/-- For every history in time, whatever the handlers do, however often the thread is shut down and reused and whether or
not the pool has room: what has been given to the thread is started, once each and in this order, all but perhaps the
last.  A thread on the stack is alive, has nothing to run and has not been asked to stop, and a thread that has ended is
not on the stack and nobody holds it. -/
theorem C75_started_once_partial (acts : List WorkAct) (s : Work) (ht : ({} : Work).Timely acts)
    (hs : ({} : Work).run acts = some s) :
    (s.given = s.ran ∨ ∃ h, s.given = s.ran ++ [h]) ∧
    (s.inPool = true → s.at_ ≠ .leave ∧ s.at_ ≠ .dead ∧ s.handler = none ∧ s.req = .none ∧ s.inMap = false ∧
      s.given = s.ran) ∧
    (s.at_ = .dead → s.inPool = false ∧ s.boss = .none ∧ s.given = s.ran) := by
  have h := Work.ok_run acts {} s Work.ok_start ht hs
  cases hat : s.at_ with
  | asleep b => cases b <;> simp only [Work.Ok, hat, Work.Free, Work.Fired] at h <;> grind
  | cleaned c b => cases b <;> simp only [Work.Ok, hat, Work.Free, Work.Fired, Work.On] at h <;> grind
  | _ => simp only [Work.Ok, hat, Work.Free, Work.Fired, Work.On] at h; grind

/-- How far the thread is from the start of the handler it has been called for. -/
def Work.far (s : Work) : Nat :=
  match s.at_ with
  | .cleaned _ _ => 4
  | .wait => 3
  | .asleep _ => 3
  | .woken => 2
  | .entry => 1
  | _ => 0

/-- The signal has been sent for `h`, and it has not been started. -/
def Work.Called (s : Work) (ran : List Nat) (h : Nat) : Prop :=
  s.Ok ∧ s.boss = .none ∧ s.ran = ran ∧ s.given = ran ++ [h]

theorem Work.called_fired {s : Work} {ran : List Nat} {h : Nat} (hc : s.Called ran h) :
    (∃ t, s.Fired t) ∧ ((∃ c, s.at_ = .cleaned c true) ∨ s.at_ = .wait ∨ s.at_ = .asleep true ∨ s.at_ = .woken ∨
      s.at_ = .entry) := by
  obtain ⟨h0, h1, h2, h3⟩ := hc
  have hne : s.given ≠ s.ran := by
    rw [h2, h3]
    intro e
    have := congrArg List.length e
    simp at this
  cases hat : s.at_ with
  | asleep b => cases b <;> simp only [Work.Ok, hat, Work.Free, Work.Fired] at h0 ⊢ <;> grind
  | cleaned c b => cases b <;> simp only [Work.Ok, hat, Work.Free, Work.Fired, Work.On] at h0 ⊢ <;> grind
  | _ => simp only [Work.Ok, hat, Work.Free, Work.Fired, Work.On] at h0 ⊢; grind

theorem Work.called_step {s s' : Work} {ran : List Nat} {h : Nat} {a : WorkAct} (hc : s.Called ran h) (ht : s.timely a)
    (hs : s.step a = some s') :
    (s'.ran = ran ++ [h]) ∨ (s'.Called ran h ∧ s'.far = s.far - (if a.isGo then 1 else 0)) := by
  obtain ⟨⟨t, hf⟩, hat⟩ := Work.called_fired hc
  have hok := Work.ok_step s s' a hc.1 ht hs
  obtain ⟨h0, h1, h2, h3⟩ := hc
  obtain ⟨f1, f2, f3, f4, f5, f6, f7, x, f8, f9⟩ := hf
  have hx : x = h := by
    rw [h3, h2] at f9
    have := List.append_cancel_left f9
    simpa using this.symm
  subst hx
  cases a with
  | go room =>
    simp only [Work.step] at hs
    rcases hat with ⟨c, hat⟩ | hat | hat | hat | hat
    · right
      simp only [Work.go, hat, f2, Option.some.injEq] at hs
      subst hs
      exact ⟨⟨hok, f5, h2, h3⟩, by simp [Work.far, hat, WorkAct.isGo]⟩
    · right
      have ht : s.trigger = true := by
        simp only [Work.Ok, hat, Work.Free] at h0
        rcases h0 with ⟨-, -, -, -, h0⟩ | h0
        · simp_all
        · exact h0.1
      simp only [Work.go, hat, ht, if_true, Option.some.injEq] at hs
      subst hs
      exact ⟨⟨hok, f5, h2, h3⟩, by simp [Work.far, hat, WorkAct.isGo]⟩
    · right
      simp only [Work.go, hat, Option.some.injEq] at hs
      subst hs
      exact ⟨⟨hok, f5, h2, h3⟩, by simp [Work.far, hat, WorkAct.isGo]⟩
    · right
      simp only [Work.go, hat, f2, Option.some.injEq] at hs
      subst hs
      exact ⟨⟨hok, f5, h2, h3⟩, by simp [Work.far, hat, WorkAct.isGo]⟩
    · left
      simp only [Work.go, hat, f8, Option.some.injEq] at hs
      subst hs
      simp only [h2]
  | serve => simp only [Work.step, f4] at hs; split at hs <;> simp_all
  | finish => simp only [Work.step] at hs; split at hs <;> simp_all
  | pop => simp [Work.step, f6] at hs
  | name => simp [Work.step, f5] at hs
  | give y => simp [Work.step, f5] at hs
  | fire y => simp [Work.step, f5] at hs
  | look =>
    right
    simp only [Work.step] at hs
    split at hs
    · simp only [Option.some.injEq, f3, Bool.false_eq_true, if_false] at hs
      subst hs
      exact ⟨⟨hok, h1, h2, h3⟩, rfl⟩
    · cases hs
  | mark g => obtain ⟨y, hy⟩ := ht; simp_all
  | poke => obtain ⟨y, hy⟩ := ht; simp_all
  | ask q =>
    right
    simp only [Work.step, f3, Bool.false_eq_true, if_false, Option.some.injEq] at hs
    subst hs
    exact ⟨⟨h0, h1, h2, h3⟩, rfl⟩
  | push i => obtain ⟨y, -, hy⟩ := ht; simp_all
  | spurious => exact ht.elim

theorem Work.ran_grows_step {s s' : Work} {a : WorkAct} (hs : s.step a = some s') : s.ran <+: s'.ran := by
  cases a with
  | go room =>
    simp only [Work.step, Work.go] at hs
    split at hs <;> simp only [Option.some.injEq, reduceCtorEq] at hs <;> subst hs
    all_goals first
      | exact List.prefix_rfl
      | (split <;> first | exact List.prefix_rfl | exact List.prefix_append _ _)
  | poke => simp only [Work.step, Option.some.injEq] at hs; subst hs; exact List.prefix_rfl
  | mark g => simp only [Work.step, Option.some.injEq] at hs; subst hs; exact List.prefix_rfl
  | ask q => simp only [Work.step, Option.some.injEq] at hs; subst hs; split <;> exact List.prefix_rfl
  | look =>
    simp only [Work.step] at hs
    split at hs <;> simp only [Option.some.injEq, reduceCtorEq] at hs
    subst hs
    split <;> exact List.prefix_rfl
  | _ =>
    simp only [Work.step] at hs
    split at hs <;> simp only [Option.some.injEq, reduceCtorEq] at hs
    subst hs
    exact List.prefix_rfl

theorem Work.ran_grows (acts : List WorkAct) {s s' : Work} (hs : s.run acts = some s') : s.ran <+: s'.ran := by
  induction acts generalizing s with
  | nil => simp only [Work.run, Option.some.injEq] at hs; rw [hs]; exact List.prefix_rfl
  | cons a as ih =>
    simp only [Work.run, Option.bind_eq_some_iff] at hs
    obtain ⟨t, h1, h2⟩ := hs
    exact (Work.ran_grows_step h1).trans (ih h2)

theorem Work.called_run (acts : List WorkAct) {s s' : Work} {ran : List Nat} {h : Nat} (hc : s.Called ran h)
    (ht : s.Timely acts) (hs : s.run acts = some s') (hn : s.far ≤ acts.countP WorkAct.isGo) : ran ++ [h] <+: s'.ran := by
  induction acts generalizing s with
  | nil =>
    obtain ⟨-, hat⟩ := Work.called_fired hc
    rw [List.countP_nil] at hn
    rcases hat with ⟨c, hat⟩ | hat | hat | hat | hat <;> simp [Work.far, hat] at hn
  | cons a as ih =>
    simp only [Work.run, Option.bind_eq_some_iff] at hs
    obtain ⟨t, h1, h2⟩ := hs
    rcases Work.called_step hc ht.1 h1 with h | ⟨h3, h4⟩
    · rw [← h]
      exact Work.ran_grows as h2
    · refine ih h3 (ht.2 t h1) h2 ?_
      rw [List.countP_cons] at hn
      rw [h4]
      cases hg : a.isGo <;> simp only [hg, Bool.false_eq_true, if_true, if_false] at hn ⊢ <;> omega

/-- What has been given to a thread and signalled is started: the thread can go on, and once it has gone on four times,
with anything in time by others in between, the handler has been started. -/
theorem C75_start_comes (acts more : List WorkAct) (s s' : Work) (h : Nat) (ht : ({} : Work).Timely acts)
    (hs : ({} : Work).run acts = some s) (hg : s.given = s.ran ++ [h]) (hb : s.boss = .none) (room : Bool) :
    s.go room ≠ none ∧
      (s.Timely more → s.run more = some s' → 4 ≤ more.countP WorkAct.isGo → s.ran ++ [h] <+: s'.ran) := by
  have hc : s.Called s.ran h := ⟨Work.ok_run acts {} s Work.ok_start ht hs, hb, rfl, hg⟩
  obtain ⟨-, hat⟩ := Work.called_fired hc
  constructor
  · rcases hat with ⟨c, hat⟩ | hat | hat | hat | hat <;> simp [Work.go, hat]
  · intro h1 h2 h3
    refine Work.called_run more hc h1 h2 (Nat.le_trans ?_ h3)
    rcases hat with ⟨c, hat⟩ | hat | hat | hat | hat <;> simp [Work.far, hat]

/-! ### The queue -/

theorem Work.books_step {s s' : Work} {a : WorkAct} (h : s.pushed = s.out.map (·.2) ++ s.queue)
    (hs : s.step a = some s') : s'.pushed = s'.out.map (·.2) ++ s'.queue := by
  cases a with
  | go room =>
    simp only [Work.step, Work.go] at hs
    split at hs <;> simp only [Option.some.injEq, reduceCtorEq] at hs <;> subst hs
    all_goals first
      | exact h
      | (split <;> exact h)
      | simp [h, Function.comp_def]
  | serve =>
    simp only [Work.step] at hs
    split at hs <;> simp only [Option.some.injEq, reduceCtorEq] at hs
    rename_i hq
    subst hs
    simp [h, hq]
  | push i =>
    simp only [Work.step] at hs
    split at hs <;> simp only [Option.some.injEq, reduceCtorEq] at hs
    subst hs
    simp [h]
  | poke => simp only [Work.step, Option.some.injEq] at hs; subst hs; exact h
  | mark g => simp only [Work.step, Option.some.injEq] at hs; subst hs; exact h
  | ask q => simp only [Work.step, Option.some.injEq] at hs; subst hs; split <;> exact h
  | look =>
    simp only [Work.step] at hs
    split at hs <;> simp only [Option.some.injEq, reduceCtorEq] at hs
    subst hs
    split <;> exact h
  | _ =>
    simp only [Work.step] at hs
    split at hs <;> simp only [Option.some.injEq, reduceCtorEq] at hs
    subst hs
    exact h

/-- For every history, in time or not: every entry put into the queue is in the queue or has been taken out once, in the
order in which they were put in. -/
theorem C75_accounted (acts : List WorkAct) (s : Work) (hs : ({} : Work).run acts = some s) :
    s.pushed = s.out.map (·.2) ++ s.queue := by
  have : ∀ (acts : List WorkAct) (t : Work), t.pushed = t.out.map (·.2) ++ t.queue → t.run acts = some s →
      s.pushed = s.out.map (·.2) ++ s.queue := by
    intro acts
    induction acts with
    | nil => intro t h hs; simp only [Work.run, Option.some.injEq] at hs; exact hs ▸ h
    | cons a as ih =>
      intro t h hs
      simp only [Work.run, Option.bind_eq_some_iff] at hs
      obtain ⟨u, h1, h2⟩ := hs
      exact ih u (Work.books_step h h1) h2
  exact this acts {} rfl hs

theorem Work.goal_step {s s' : Work} {a : WorkAct} (hok : s.Ok) (h : ∀ x q, (some x, q) ∈ s.out → q.goal = x)
    (hs : s.step a = some s') : ∀ x q, (some x, q) ∈ s'.out → q.goal = x := by
  cases a with
  | go room =>
    simp only [Work.step, Work.go] at hs
    split at hs <;> simp only [Option.some.injEq, reduceCtorEq] at hs <;> subst hs
    all_goals first
      | exact h
      | (split <;> exact h)
      | (intro x q hx
         rcases List.mem_append.1 hx with hx | hx
         · exact h x q hx
         · simp at hx)
  | serve =>
    simp only [Work.step] at hs
    split at hs <;> simp only [Option.some.injEq, reduceCtorEq] at hs
    rename_i y q0 qs hat hq
    subst hs
    intro x q hx
    rcases List.mem_append.1 hx with hx | hx
    · exact h x q hx
    · simp only [List.mem_singleton, Prod.mk.injEq, Option.some.injEq] at hx
      rw [hx.1, hx.2]
      simp only [Work.Ok, hat] at hok
      exact hok.2.2.2.2 q0 (by rw [hq]; exact List.mem_cons_self)
  | poke => simp only [Work.step, Option.some.injEq] at hs; subst hs; exact h
  | mark g => simp only [Work.step, Option.some.injEq] at hs; subst hs; exact h
  | ask q => simp only [Work.step, Option.some.injEq] at hs; subst hs; split <;> exact h
  | look =>
    simp only [Work.step] at hs
    split at hs <;> simp only [Option.some.injEq, reduceCtorEq] at hs
    subst hs
    split <;> exact h
  | _ =>
    simp only [Work.step] at hs
    split at hs <;> simp only [Option.some.injEq, reduceCtorEq] at hs
    subst hs
    exact h

/-- For every history in time: an entry that is processed is processed by the handler it was meant for, and a thread on
the stack has no entries.  In time is needed: `C75_wrong_handler`. -/
theorem C75_own_entries_partial (acts : List WorkAct) (s : Work) (ht : ({} : Work).Timely acts)
    (hs : ({} : Work).run acts = some s) :
    (∀ h q, (some h, q) ∈ s.out → q.goal = h) ∧ (s.inPool = true → s.queue = []) := by
  constructor
  · have : ∀ (acts : List WorkAct) (t : Work), t.Ok → t.Timely acts → (∀ x q, (some x, q) ∈ t.out → q.goal = x) →
        t.run acts = some s → ∀ x q, (some x, q) ∈ s.out → q.goal = x := by
      intro acts
      induction acts with
      | nil => intro t _ _ h hs; simp only [Work.run, Option.some.injEq] at hs; exact hs ▸ h
      | cons a as ih =>
        intro t hok ht h hs
        simp only [Work.run, Option.bind_eq_some_iff] at hs
        obtain ⟨u, h1, h2⟩ := hs
        exact ih u (t.ok_step u a hok ht.1 h1) (ht.2 u h1) (Work.goal_step hok h h1) h2
    exact this acts {} Work.ok_start ht (fun x q hx => nomatch hx) hs
  · have h := Work.ok_run acts {} s Work.ok_start ht hs
    cases hat : s.at_ with
    | asleep b => cases b <;> simp only [Work.Ok, hat, Work.Free, Work.Fired] at h <;> grind
    | cleaned c b => cases b <;> simp only [Work.Ok, hat, Work.Free, Work.Fired, Work.On] at h <;> grind
    | _ => simp only [Work.Ok, hat, Work.Free, Work.Fired, Work.On] at h; grind

/-! ### Too late -/

/-- A thread that has ended stays so and starts nothing. -/
theorem Work.dead_stays (acts : List WorkAct) {s s' : Work} (hd : s.at_ = .dead) (hs : s.run acts = some s') :
    s'.at_ = .dead ∧ s'.ran = s.ran ∧ ∃ l, s'.waiting = s.waiting ++ l := by
  induction acts generalizing s with
  | nil => simp only [Work.run, Option.some.injEq] at hs; subst hs; exact ⟨hd, rfl, [], by simp⟩
  | cons a as ih =>
    simp only [Work.run, Option.bind_eq_some_iff] at hs
    obtain ⟨t, h1, h2⟩ := hs
    have : t.at_ = .dead ∧ t.ran = s.ran ∧ ∃ l, t.waiting = s.waiting ++ l := by
      cases a with
      | go room => simp [Work.step, Work.go, hd] at h1
      | serve => simp [Work.step, hd] at h1
      | finish => simp [Work.step, hd] at h1
      | spurious => simp [Work.step, hd] at h1
      | poke =>
        simp only [Work.step, Option.some.injEq] at h1
        subst h1
        exact ⟨by simp [Work.signal, hd], rfl, [], by simp [Work.signal]⟩
      | fire y =>
        simp only [Work.step] at h1
        split at h1 <;> simp only [Option.some.injEq, reduceCtorEq] at h1
        subst h1
        exact ⟨by simp [Work.signal, hd], rfl, [], by simp [Work.signal]⟩
      | mark g => simp only [Work.step, Option.some.injEq] at h1; subst h1; exact ⟨hd, rfl, [], by simp⟩
      | ask q => simp only [Work.step, Option.some.injEq] at h1; subst h1; split <;> exact ⟨hd, rfl, [], by simp⟩
      | look =>
        simp only [Work.step] at h1
        split at h1 <;> simp only [Option.some.injEq, reduceCtorEq] at h1
        subst h1
        split
        · exact ⟨hd, rfl, [], by simp⟩
        · exact ⟨hd, rfl, _, rfl⟩
      | _ =>
        simp only [Work.step] at h1
        split at h1 <;> simp only [Option.some.injEq, reduceCtorEq] at h1
        subst h1
        exact ⟨hd, rfl, [], by simp⟩
    obtain ⟨i1, i2, l, i3⟩ := this
    obtain ⟨j1, j2, l', j3⟩ := ih i1 h2
    exact ⟨j1, j2.trans i2, l ++ l', by rw [j3, i3, List.append_assoc]⟩

/-- A thread that is handed out and runs its first handler. -/
def workFirst (h : Nat) : List WorkAct := [.name, .give h, .fire false, .go true, .go true, .go true]

/-- From the return of the handler to `wait`. -/
def workBack : List WorkAct := [.finish] ++ List.replicate 9 (.go true)

/-- `kill` finds the busy thread and marks it; the handler returns and the thread is back on the stack before the signal
of `kill`. -/
def killSlow : List WorkAct :=
  workFirst 1 ++ [.mark true] ++ workBack ++ [.go true, .go true] ++ [.poke] ++ List.replicate 10 (.go true)

/-- `kill` finds the busy thread; it is back on the stack before it is marked. -/
def killLate : List WorkAct := workFirst 1 ++ workBack ++ [.mark true, .poke] ++ List.replicate 9 (.go true)

/-- A wait on the stack ends by itself. -/
def wakeEarly : List WorkAct := workFirst 1 ++ workBack ++ [.go true, .spurious] ++ List.replicate 10 (.go true)

/-- Defect: a thread that is shut down in the moment in which its handler returns, or whose wait ends by itself, ends
while it is on the stack of the pool.  What is given to it afterwards is never started, whatever happens, and a caller
that waits for the start waits for ever. -/
theorem C75_dead_on_stack : ∀ acts ∈ [killSlow, killLate, wakeEarly],
    ∃ s, ({} : Work).run acts = some s ∧ s.at_ = .dead ∧ s.inPool = true ∧ s.ran = [1] ∧
      ∀ h more s', s.run ([.pop, .name, .give h, .fire true, .look] ++ more) = some s' →
        s'.ran = [1] ∧ h ∈ s'.waiting := by
  have key : ∀ s : Work, s.at_ = .dead → s.boss = .none → s.running = false → s.looking = [] → s.inPool = true → s.ran = [1] →
      ∀ h more s', s.run ([.pop, .name, .give h, .fire true, .look] ++ more) = some s' →
        s'.ran = [1] ∧ h ∈ s'.waiting := by
    intro s h1 h2 h3 h4 h5 h6 h more s' hs
    obtain ⟨t, ht, hd, hr, hw⟩ : ∃ t : Work, s.run ([.pop, .name, .give h, .fire true, .look] ++ more) = t.run more ∧
        t.at_ = .dead ∧ t.ran = [1] ∧ h ∈ t.waiting := by
      simp only [List.cons_append, List.nil_append, Work.run, Work.step, h2, h5, and_self, if_true, Option.bind_some,
        Work.signal, h4, h3, Bool.false_eq_true, if_false, List.getLast?_concat, Option.toList, h1, reduceCtorEq]
      exact ⟨_, rfl, rfl, h6, List.mem_append_right _ (List.mem_singleton.2 rfl)⟩
    rw [ht] at hs
    obtain ⟨-, j2, l, j3⟩ := Work.dead_stays more hd hs
    exact ⟨j2.trans hr, by rw [j3]; exact List.mem_append_left _ hw⟩
  intro acts ha
  simp only [List.mem_cons, List.not_mem_nil, or_false] at ha
  rcases ha with rfl | rfl | rfl
  · exact ⟨_, rfl, rfl, rfl, rfl, key _ rfl rfl rfl rfl rfl rfl⟩
  · exact ⟨_, rfl, rfl, rfl, rfl, key _ rfl rfl rfl rfl rfl rfl⟩
  · exact ⟨_, rfl, rfl, rfl, rfl, key _ rfl rfl rfl rfl rfl rfl⟩

theorem Work.waiting_step {s t : Work} {a : WorkAct} (h1 : s.step a = some t) :
    (∃ l, t.waiting = s.waiting ++ l) ∨ t.ran.length = s.ran.length + 1 := by
  cases a with
  | go room =>
    simp only [Work.step, Work.go] at h1
    split at h1 <;> simp only [Option.some.injEq, reduceCtorEq] at h1 <;> subst h1
    all_goals first
      | exact Or.inl ⟨[], (List.append_nil _).symm⟩
      | (split <;> first
          | exact Or.inl ⟨[], (List.append_nil _).symm⟩
          | exact Or.inr (List.length_append ..))
  | poke => simp only [Work.step, Option.some.injEq] at h1; subst h1; exact Or.inl ⟨[], (List.append_nil _).symm⟩
  | mark g => simp only [Work.step, Option.some.injEq] at h1; subst h1; exact Or.inl ⟨[], (List.append_nil _).symm⟩
  | ask q =>
    simp only [Work.step, Option.some.injEq] at h1
    subst h1
    split <;> exact Or.inl ⟨[], (List.append_nil _).symm⟩
  | look =>
    simp only [Work.step] at h1
    split at h1 <;> simp only [Option.some.injEq, reduceCtorEq] at h1
    subst h1
    split
    · exact Or.inl ⟨[], (List.append_nil _).symm⟩
    · exact Or.inl ⟨_, rfl⟩
  | _ =>
    simp only [Work.step] at h1
    split at h1 <;> simp only [Option.some.injEq, reduceCtorEq] at h1
    subst h1
    exact Or.inl ⟨[], (List.append_nil _).symm⟩

/-- Those who wait for the start are woken only by a start. -/
theorem Work.waiting_stays (acts : List WorkAct) {s s' : Work} (hs : s.run acts = some s') (hr : s'.ran = s.ran) :
    ∃ l, s'.waiting = s.waiting ++ l := by
  induction acts generalizing s with
  | nil => simp only [Work.run, Option.some.injEq] at hs; subst hs; exact ⟨[], by simp⟩
  | cons a as ih =>
    simp only [Work.run, Option.bind_eq_some_iff] at hs
    obtain ⟨t, h1, h2⟩ := hs
    have p1 := Work.ran_grows_step h1
    have l1 := p1.length_le
    have l2 := (Work.ran_grows as h2).length_le
    rw [hr] at l2
    have e : t.ran = s.ran := (p1.eq_of_length (by omega)).symm
    rcases Work.waiting_step h1 with ⟨l, i⟩ | h
    · obtain ⟨l', j⟩ := ih h2 (hr.trans e.symm)
      exact ⟨l ++ l', by rw [j, i, List.append_assoc]⟩
    · omega

/-- Defect: a caller that waits for the start of a handler that has already returned waits until the thread is used for
something else, in a history in time. -/
theorem C75_start_missed : ∃ acts s, ({} : Work).Timely acts ∧ ({} : Work).run acts = some s ∧ s.ran = [1] ∧
    s.waiting = [1] ∧ ∀ more s', s.run more = some s' → s'.ran = s.ran → 1 ∈ s'.waiting := by
  refine ⟨[.name, .give 1, .fire true, .go true, .go true, .go true, .finish, .go true, .look], _, ?_, rfl, rfl, rfl, ?_⟩
  · simp [Work.Timely, Work.timely]
  · intro more s' h1 h2
    obtain ⟨l, h⟩ := Work.waiting_stays more h1 h2
    rw [h]
    exact List.mem_append_left _ (List.mem_singleton.2 rfl)

/-- Defect: an entry is put into the queue of a thread whose handler has returned since the caller looked, and the next
handler, perhaps for another node, processes it. -/
theorem C75_wrong_handler : ∃ acts s, ({} : Work).run acts = some s ∧ (∀ a ∈ acts, a.isMark = false ∧ a ≠ .spurious) ∧
    s.out = [(some 2, ⟨1, 7⟩)] ∧ s.ran = [1, 2] := by
  refine ⟨workFirst 1 ++ [.ask ⟨1, 7⟩] ++ workBack ++ [.push 0, .pop, .name, .give 2, .fire false] ++
    List.replicate 3 (.go true) ++ [.serve], _, rfl, by decide, rfl, rfl⟩

/-- Defect: a thread that is shut down after it has been taken from the pool and before it has its handler goes back to
the stack and runs the handler there; the handler that the next caller gives it is deleted and never started. -/
theorem C75_given_twice : ∃ acts s, ({} : Work).run acts = some s ∧ s.given = [1, 2] ∧ s.ran = [1] ∧ s.handler = none ∧
    s.boss = .none ∧ acts.countP WorkAct.isMark = 1 := by
  refine ⟨[.name, .mark true, .poke] ++ List.replicate 9 (.go true) ++ [.give 1, .fire false] ++
    List.replicate 3 (.go true) ++ [.pop, .name, .give 2, .fire false, .finish, .go true, .go true], _, rfl, ?_⟩
  decide

/-! ### Waiting for the end -/

theorem Work.stopped_step {s s' : Work} {a : WorkAct} (hs : s.step a = some s') (h : s.stopped = true) :
    s'.stopped = true := by
  cases a with
  | go room =>
    simp only [Work.step, Work.go] at hs
    split at hs <;> simp only [Option.some.injEq, reduceCtorEq] at hs <;> subst hs
    all_goals first
      | exact h
      | rfl
      | (split <;> exact h)
  | poke => simp only [Work.step, Option.some.injEq] at hs; subst hs; exact h
  | mark g => simp only [Work.step, Option.some.injEq] at hs; subst hs; exact h
  | ask q => simp only [Work.step, Option.some.injEq] at hs; subst hs; split <;> exact h
  | look =>
    simp only [Work.step] at hs
    split at hs <;> simp only [Option.some.injEq, reduceCtorEq] at hs
    subst hs
    split <;> exact h
  | _ =>
    simp only [Work.step] at hs
    split at hs <;> simp only [Option.some.injEq, reduceCtorEq] at hs
    subst hs
    exact h

/-- `shutdown` does not wait once the thread has said that it ends.  If the thread has not been shut down before, it has
said so only if it has ended. -/
theorem C75_stop_awaited (acts : List WorkAct) (s : Work) (hs : ({} : Work).run acts = some s)
    (hm : ∀ a ∈ acts, a.isMark = false) : s.stopped = true → s.at_ = .dead := by
  have : ∀ (acts : List WorkAct) (t : Work), (∀ a ∈ acts, a.isMark = false) →
      (t.req = .none ∧ t.at_ ≠ .notify ∧ (t.stopped = true → t.at_ = .dead)) → t.run acts = some s →
      (s.stopped = true → s.at_ = .dead) := by
    intro acts
    induction acts with
    | nil => intro t _ h hs; simp only [Work.run, Option.some.injEq] at hs; exact hs ▸ h.2.2
    | cons a as ih =>
      intro t hm h hs
      simp only [Work.run, Option.bind_eq_some_iff] at hs
      obtain ⟨u, h1, h2⟩ := hs
      refine ih u (fun a ha => hm a (List.mem_cons_of_mem _ ha)) ?_ h2
      have hma := hm a List.mem_cons_self
      obtain ⟨g1, g2, g3⟩ := h
      cases a with
      | mark g => cases hma
      | go room =>
        simp only [Work.step, Work.go] at h1
        split at h1 <;> simp only [Option.some.injEq, reduceCtorEq] at h1 <;> subst h1
        all_goals (try split) <;> simp_all
      | poke =>
        simp only [Work.step, Option.some.injEq] at h1
        subst h1
        simp only [Work.signal]
        split <;> simp_all
      | fire y =>
        simp only [Work.step] at h1
        split at h1 <;> simp only [Option.some.injEq, reduceCtorEq] at h1
        subst h1
        simp only [Work.signal]
        split <;> simp_all
      | ask q => simp only [Work.step, Option.some.injEq] at h1; subst h1; split <;> exact ⟨g1, g2, g3⟩
      | look =>
        simp only [Work.step] at h1
        split at h1 <;> simp only [Option.some.injEq, reduceCtorEq] at h1
        subst h1
        split <;> exact ⟨g1, g2, g3⟩
      | _ =>
        simp only [Work.step] at h1
        split at h1 <;> simp only [Option.some.injEq, reduceCtorEq] at h1
        subst h1
        simp_all
  exact this acts {} hm ⟨rfl, (fun h => nomatch h), (fun h => nomatch h)⟩ hs

/-- Defect: the flag is never taken back.  A thread that has been shut down once, in time, and reused is never waited for
again: a later `shutdown` returns while its handler is busy. -/
theorem C75_stop_not_awaited : (∃ acts s, ({} : Work).Timely acts ∧ ({} : Work).run acts = some s ∧ s.stopped = true ∧
      s.at_ = .busy 2) ∧
    ∀ acts (s s' : Work), s.stopped = true → s.run acts = some s' → s'.stopped = true := by
  constructor
  · refine ⟨workFirst 1 ++ [.mark true, .poke] ++ workBack ++ [.go true, .pop, .name, .give 2, .fire false] ++
      List.replicate 3 (.go true), _, ?_, rfl, rfl, rfl⟩
    simp [workFirst, workBack, Work.Timely, Work.timely, Work.step, Work.go, Work.signal, List.replicate]
  · intro acts
    induction acts with
    | nil => intro s s' h hs; simp only [Work.run, Option.some.injEq] at hs; exact hs ▸ h
    | cons a as ih =>
      intro s s' h hs
      simp only [Work.run, Option.bind_eq_some_iff] at hs
      obtain ⟨u, h1, h2⟩ := hs
      exact ih u s' (Work.stopped_step h1 h) h2

/-! ### Examples -/

/-- Three handlers; the thread is killed in time during the first, the second has an entry, the third has just been
signalled. -/
def workEx : List WorkAct :=
  workFirst 1 ++ [.mark true, .poke] ++ workBack ++ [.go true, .pop, .name, .give 2, .fire true, .look] ++
    List.replicate 3 (.go true) ++ [.ask ⟨2, 5⟩, .ask ⟨2, 6⟩, .push 1, .serve, .push 0, .finish] ++
    List.replicate 8 (.go true) ++ [.pop, .name, .give 3, .fire false]

example : ({} : Work).Timely workEx ∧ ∃ s, ({} : Work).run workEx = some s ∧ s.given = [1, 2, 3] ∧ s.ran = [1, 2] ∧
    s.out = [(some 2, ⟨2, 6⟩), (none, ⟨2, 5⟩)] ∧ s.waiting = [] ∧ s.boss = .none ∧
    ∃ s', s.run (List.replicate 4 (.go false)) = some s' ∧ s'.at_ = .busy 3 ∧ s'.ran = [1, 2, 3] := by
  constructor
  · simp [workEx, workFirst, workBack, Work.Timely, Work.timely, Work.step, Work.go, Work.signal, List.replicate]
  · exact ⟨_, rfl, rfl, rfl, rfl, rfl, rfl, _, rfl, rfl, rfl⟩

example : ∃ s, ({} : Work).run (workFirst 1 ++ [.finish] ++ List.replicate 8 (.go false) ++ [.go true, .go true]) = some s ∧
    s.stopped = true ∧ s.at_ = .dead ∧ s.inPool = false := ⟨_, rfl, rfl, rfl, rfl⟩

end Flare
