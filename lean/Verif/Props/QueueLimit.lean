import Verif.Model.QueueLimit

/-! C83: the number of entries that wait to be sent is known and limited. -/
namespace Flare

/-- A number summed over all queues. -/
def overQueues (f : OneQueue → Nat) (l : List OneQueue) : Nat := (l.map f).sum

theorem overQueues_set (f : OneQueue → Nat) (l : List OneQueue) (i : Nat) (x y : OneQueue) (h : l[i]? = some x) :
    overQueues f (l.set i y) + f x = overQueues f l + f y := by
  induction l generalizing i with
  | nil => simp at h
  | cons a l ih =>
    cases i with
    | zero =>
      simp only [List.getElem?_cons_zero, Option.some.injEq] at h
      subst h
      simp only [overQueues, List.set_cons_zero, List.map_cons, List.sum_cons]; omega
    | succ i =>
      simp only [List.getElem?_cons_succ] at h
      have := ih i h
      simp only [overQueues, List.set_cons_succ, List.map_cons, List.sum_cons] at this ⊢; omega

theorem overQueues_le (f g : OneQueue → Nat) (l : List OneQueue) (h : ∀ q, f q ≤ g q) :
    overQueues f l ≤ overQueues g l := by
  induction l with
  | nil => exact Nat.le_refl _
  | cons a l ih =>
    have := h a
    simp only [overQueues, List.map_cons, List.sum_cons] at ih ⊢; omega

theorem overQueues_add (f g : OneQueue → Nat) (l : List OneQueue) :
    overQueues (fun q => f q + g q) l = overQueues f l + overQueues g l := by
  induction l with
  | nil => rfl
  | cons a l ih => simp only [overQueues, List.map_cons, List.sum_cons] at ih ⊢; omega

theorem overQueues_one (l : List OneQueue) : overQueues (fun _ => 1) l = l.length := by
  induction l with
  | nil => rfl
  | cons a l ih => simp only [overQueues, List.map_cons, List.sum_cons, List.length_cons] at ih ⊢; omega

/-- How many entries wait. -/
def Queues.waiting (s : Queues) : Nat := overQueues OneQueue.len s.queues

def OneQueue.isPushed (q : OneQueue) : Nat := match q.phase with | .pushed => 1 | _ => 0
def OneQueue.isPopped (q : OneQueue) : Nat := match q.phase with | .popped => 1 | _ => 0
/-- A call has looked and will push. -/
def OneQueue.isBound (q : OneQueue) : Nat :=
  match q.phase with
  | .looked size max => if mayPush size max then 1 else 0
  | _ => 0

/-- No call is under way. -/
def Queues.quiet (s : Queues) : Prop := ∀ q ∈ s.queues, q.phase = .free

/-- What holds between the counter and the queues at any time. -/
structure LimitCounted (s : Queues) : Prop where
  eq : s.counter + overQueues OneQueue.isPushed s.queues = s.waiting + overQueues OneQueue.isPopped s.queues
  own : ∀ q ∈ s.queues, q.isPushed ≤ q.len

theorem own_set {l : List OneQueue} {i : Nat} {y : OneQueue} (h : ∀ q ∈ l, q.isPushed ≤ q.len)
    (hy : y.isPushed ≤ y.len) : ∀ q ∈ l.set i y, q.isPushed ≤ q.len := by
  intro q hq
  rcases List.mem_or_eq_of_mem_set hq with h' | h'
  · exact h q h'
  · rw [h']; exact hy

theorem overQueues_le_mem (f g : OneQueue → Nat) (l : List OneQueue) (h : ∀ q ∈ l, f q ≤ g q) :
    overQueues f l ≤ overQueues g l := by
  induction l with
  | nil => exact Nat.le_refl _
  | cons a l ih =>
    have h1 := h a List.mem_cons_self
    have h2 := ih (fun q hq => h q (List.mem_cons_of_mem _ hq))
    simp only [overQueues, List.map_cons, List.sum_cons] at h2 ⊢; omega

theorem counted_step (s s' : Queues) (a : QueueAct) (h : s.step a = some s') (hc : LimitCounted s) : LimitCounted s' := by
  obtain ⟨he, ho⟩ := hc
  have hle := overQueues_le_mem _ _ _ ho
  cases a with
  | look i max =>
    simp only [Queues.step] at h
    split at h
    · rename_i n hq
      obtain ⟨y, hy⟩ : ∃ y, y = OneQueue.mk n (.looked (if 0 < max then s.counter % 4294967296 else 0) max) := ⟨_, rfl⟩
      rw [← hy] at h
      simp only [Option.some.injEq] at h; subst h
      have h1 := overQueues_set OneQueue.len _ _ _ y hq
      have h2 := overQueues_set OneQueue.isPushed _ _ _ y hq
      have h3 := overQueues_set OneQueue.isPopped _ _ _ y hq
      subst hy
      simp only [OneQueue.isPushed, OneQueue.isPopped] at h1 h2 h3
      refine ⟨?_, own_set ho (by simp [OneQueue.isPushed])⟩
      simp only [Queues.waiting, OneQueue.isPushed, OneQueue.isPopped] at he ⊢
      omega
    · exact absurd h (by simp)
  | push i =>
    simp only [Queues.step] at h
    split at h
    · rename_i n size max hq
      split at h
      all_goals
        simp only [Option.some.injEq] at h; subst h
      · have h1 := overQueues_set OneQueue.len _ _ _ ⟨n + 1, .pushed⟩ hq
        have h2 := overQueues_set OneQueue.isPushed _ _ _ ⟨n + 1, .pushed⟩ hq
        have h3 := overQueues_set OneQueue.isPopped _ _ _ ⟨n + 1, .pushed⟩ hq
        simp only [OneQueue.isPushed, OneQueue.isPopped] at h1 h2 h3
        refine ⟨?_, own_set ho (by simp [OneQueue.isPushed])⟩
        simp only [Queues.waiting, OneQueue.isPushed, OneQueue.isPopped] at he ⊢
        omega
      · have h1 := overQueues_set OneQueue.len _ _ _ ⟨n, .free⟩ hq
        have h2 := overQueues_set OneQueue.isPushed _ _ _ ⟨n, .free⟩ hq
        have h3 := overQueues_set OneQueue.isPopped _ _ _ ⟨n, .free⟩ hq
        simp only [OneQueue.isPushed, OneQueue.isPopped] at h1 h2 h3
        refine ⟨?_, own_set ho (by simp [OneQueue.isPushed])⟩
        simp only [Queues.waiting, OneQueue.isPushed, OneQueue.isPopped] at he ⊢
        omega
    · exact absurd h (by simp)
  | count i =>
    simp only [Queues.step] at h
    split at h
    · rename_i n hq
      simp only [Option.some.injEq] at h; subst h
      have h1 := overQueues_set OneQueue.len _ _ _ ⟨n, .free⟩ hq
      have h2 := overQueues_set OneQueue.isPushed _ _ _ ⟨n, .free⟩ hq
      have h3 := overQueues_set OneQueue.isPopped _ _ _ ⟨n, .free⟩ hq
      simp only [OneQueue.isPushed, OneQueue.isPopped] at h1 h2 h3
      refine ⟨?_, own_set ho (by simp [OneQueue.isPushed])⟩
      simp only [Queues.waiting, OneQueue.isPushed, OneQueue.isPopped] at he ⊢
      omega
    · exact absurd h (by simp)
  | pop i =>
    simp only [Queues.step] at h
    split at h
    · rename_i n hq
      simp only [Option.some.injEq] at h; subst h
      have h1 := overQueues_set OneQueue.len _ _ _ ⟨n, .popped⟩ hq
      have h2 := overQueues_set OneQueue.isPushed _ _ _ ⟨n, .popped⟩ hq
      have h3 := overQueues_set OneQueue.isPopped _ _ _ ⟨n, .popped⟩ hq
      simp only [OneQueue.isPushed, OneQueue.isPopped] at h1 h2 h3
      refine ⟨?_, own_set ho (by simp [OneQueue.isPushed])⟩
      simp only [Queues.waiting, OneQueue.isPushed, OneQueue.isPopped] at he ⊢
      omega
    · exact absurd h (by simp)
  | uncount i =>
    simp only [Queues.step] at h
    split at h
    · rename_i n hq
      simp only [Option.some.injEq] at h; subst h
      have h1 := overQueues_set OneQueue.len _ _ _ ⟨n, .free⟩ hq
      have h2 := overQueues_set OneQueue.isPushed _ _ _ ⟨n, .free⟩ hq
      have h3 := overQueues_set OneQueue.isPopped _ _ _ ⟨n, .free⟩ hq
      simp only [OneQueue.isPushed, OneQueue.isPopped] at h1 h2 h3 hle
      refine ⟨?_, own_set ho (by simp [OneQueue.isPushed])⟩
      simp only [Queues.waiting, OneQueue.isPushed, OneQueue.isPopped] at he ⊢
      omega
    · exact absurd h (by simp)

/-- `n` empty queues. -/
def emptyQueues (n : Nat) : Queues := { queues := List.replicate n {} }

theorem overQueues_replicate (f : OneQueue → Nat) (n : Nat) (q : OneQueue) (h : f q = 0) :
    overQueues f (List.replicate n q) = 0 := by
  induction n with
  | zero => rfl
  | succ n ih => simp only [overQueues, List.replicate_succ, List.map_cons, List.sum_cons, h] at ih ⊢; omega

theorem counted_empty (n : Nat) : LimitCounted (emptyQueues n) := by
  refine ⟨?_, ?_⟩
  · simp only [emptyQueues, Queues.waiting]
    rw [overQueues_replicate _ _ _ rfl, overQueues_replicate _ _ _ rfl, overQueues_replicate _ _ _ rfl]
  · intro q hq
    rw [(List.mem_replicate.mp hq).2]; exact Nat.le_refl _

theorem counted_run (acts : List QueueAct) : ∀ (s s' : Queues), s.run acts = some s' → LimitCounted s → LimitCounted s' := by
  induction acts with
  | nil => intro s s' h hc; cases h; exact hc
  | cons a as ih =>
    intro s s' h hc
    unfold Queues.run at h
    split at h
    · exact absurd h (by simp)
    · rename_i s1 h1
      exact ih s1 s' h (counted_step s s1 a h1 hc)

theorem length_step (s s' : Queues) (a : QueueAct) (h : s.step a = some s') : s'.queues.length = s.queues.length := by
  cases a <;> simp only [Queues.step] at h <;> split at h <;>
    first
    | (simp only [Option.some.injEq] at h; subst h; simp; done)
    | (exact absurd h (by simp); done)
    | (split at h <;> (simp only [Option.some.injEq] at h; subst h; simp))

theorem length_run (acts : List QueueAct) : ∀ (s s' : Queues), s.run acts = some s' →
    s'.queues.length = s.queues.length := by
  induction acts with
  | nil => intro s s' h; cases h; rfl
  | cons a as ih =>
    intro s s' h
    unfold Queues.run at h
    split at h
    · exact absurd h (by simp)
    · rename_i s1 h1
      rw [ih s1 s' h, length_step s s1 a h1]

theorem overQueues_zero (f : OneQueue → Nat) (l : List OneQueue) (h : ∀ q ∈ l, f q = 0) : overQueues f l = 0 := by
  have := overQueues_le_mem f (fun _ => 0) l (fun q hq => Nat.le_of_eq (h q hq))
  have h2 : overQueues (fun _ => 0) l = 0 := by
    clear this h
    induction l with
    | nil => rfl
    | cons a l ih => simp only [overQueues, List.map_cons, List.sum_cons] at ih ⊢; omega
  omega

/-- **C83, the counter is right.**  Whatever is put into the queues and taken from them, with whatever limits: when no call
is under way, `total_thread_queue` is the number of entries that wait; and while calls are under way it differs from it by
at most one for each queue. -/
theorem C83_counter (n : Nat) (acts : List QueueAct) (s : Queues) (h : (emptyQueues n).run acts = some s) :
    (s.quiet → s.counter = s.waiting) ∧ s.counter ≤ s.waiting + n ∧ s.waiting ≤ s.counter + n := by
  obtain ⟨he, -⟩ := counted_run acts _ s h (counted_empty n)
  have hl := length_run acts _ s h
  simp only [emptyQueues, List.length_replicate] at hl
  have h1 := overQueues_le OneQueue.isPushed (fun _ => 1) s.queues
    (fun q => by unfold OneQueue.isPushed; split <;> omega)
  have h2 := overQueues_le OneQueue.isPopped (fun _ => 1) s.queues
    (fun q => by unfold OneQueue.isPopped; split <;> omega)
  rw [overQueues_one, hl] at h1 h2
  refine ⟨fun hq => ?_, by omega, by omega⟩
  have z1 := overQueues_zero OneQueue.isPushed s.queues (fun q hm => by simp [OneQueue.isPushed, hq q hm])
  have z2 := overQueues_zero OneQueue.isPopped s.queues (fun q hm => by simp [OneQueue.isPopped, hq q hm])
  omega

/-- **C83, the counter never runs below nothing**: whenever one is taken off it, there is one. -/
theorem C83_no_underflow (n : Nat) (acts : List QueueAct) (s : Queues) (i k : Nat)
    (h : (emptyQueues n).run acts = some s) (hp : s.queues[i]? = some ⟨k, .popped⟩) : 1 ≤ s.counter := by
  obtain ⟨he, ho⟩ := counted_run acts _ s h (counted_empty n)
  have hle := overQueues_le_mem _ _ _ ho
  have h1 := overQueues_set OneQueue.isPopped _ _ _ ⟨k, .free⟩ hp
  simp only [OneQueue.isPopped] at h1
  simp only [Queues.waiting, OneQueue.isPopped] at he
  omega

theorem phase_one (q : OneQueue) : q.isPushed + q.isBound ≤ 1 := by
  obtain ⟨n, ph⟩ := q
  cases ph with
  | free => simp [OneQueue.isPushed, OneQueue.isBound]
  | looked size max => simp only [OneQueue.isPushed, OneQueue.isBound]; split <;> omega
  | pushed => simp [OneQueue.isPushed, OneQueue.isBound]
  | popped => simp [OneQueue.isPushed, OneQueue.isBound]

/-- What no step raises if every call has a limit. -/
theorem limit_step (s s' : Queues) (a : QueueAct) (M N : Nat) (h : s.step a = some s')
    (hm : ∀ i max, a = .look i max → 0 < max ∧ max ≤ M) (hfit : M + N ≤ 4294967296) (hN : s.queues.length = N)
    (hb : s.counter + overQueues OneQueue.isPushed s.queues + overQueues OneQueue.isBound s.queues ≤ M - 1 + N) :
    s'.counter + overQueues OneQueue.isPushed s'.queues + overQueues OneQueue.isBound s'.queues ≤ M - 1 + N := by
  cases a with
  | look i max =>
    obtain ⟨m1, m2⟩ := hm i max rfl
    simp only [Queues.step] at h
    split at h
    · rename_i n hq
      have hlt : s.counter < 4294967296 := by omega
      obtain ⟨y, hy⟩ : ∃ y, y = OneQueue.mk n (.looked (if 0 < max then s.counter % 4294967296 else 0) max) := ⟨_, rfl⟩
      rw [← hy] at h
      simp only [Option.some.injEq] at h; subst h
      have h2 := overQueues_set OneQueue.isPushed _ _ _ y hq
      have h4 := overQueues_set OneQueue.isBound _ _ _ y hq
      have hall := overQueues_le (fun q => q.isPushed + q.isBound) (fun _ => 1) (s.queues.set i y)
        (fun q => phase_one q)
      rw [overQueues_add, overQueues_one, List.length_set, hN] at hall
      subst hy
      rw [if_pos m1, Nat.mod_eq_of_lt hlt] at *
      by_cases g : mayPush s.counter max = true
      · have : s.counter < max := by
          simp only [mayPush, Bool.or_eq_true, decide_eq_true_eq] at g; omega
        dsimp only
        omega
      · simp only [OneQueue.isPushed, OneQueue.isBound, g] at h2 h4
        simp only [OneQueue.isPushed, OneQueue.isBound] at hb ⊢
        simp only [Bool.false_eq_true, if_false] at h4
        omega
    · exact absurd h (by simp)
  | push i =>
    simp only [Queues.step] at h
    split at h
    · rename_i n size max hq
      split at h
      all_goals
        rename_i g
        simp only [Option.some.injEq] at h; subst h
      · have h2 := overQueues_set OneQueue.isPushed _ _ _ ⟨n + 1, .pushed⟩ hq
        have h4 := overQueues_set OneQueue.isBound _ _ _ ⟨n + 1, .pushed⟩ hq
        simp only [OneQueue.isPushed, OneQueue.isBound, g, if_true] at h2 h4
        simp only [OneQueue.isPushed, OneQueue.isBound] at hb ⊢
        omega
      · have h2 := overQueues_set OneQueue.isPushed _ _ _ ⟨n, .free⟩ hq
        have h4 := overQueues_set OneQueue.isBound _ _ _ ⟨n, .free⟩ hq
        simp only [OneQueue.isPushed, OneQueue.isBound, g] at h2 h4
        simp only [Bool.false_eq_true, if_false] at h4
        simp only [OneQueue.isPushed, OneQueue.isBound] at hb ⊢
        omega
    · exact absurd h (by simp)
  | count i =>
    simp only [Queues.step] at h
    split at h
    · rename_i n hq
      simp only [Option.some.injEq] at h; subst h
      have h2 := overQueues_set OneQueue.isPushed _ _ _ ⟨n, .free⟩ hq
      have h4 := overQueues_set OneQueue.isBound _ _ _ ⟨n, .free⟩ hq
      simp only [OneQueue.isPushed, OneQueue.isBound] at h2 h4
      simp only [OneQueue.isPushed, OneQueue.isBound] at hb ⊢
      omega
    · exact absurd h (by simp)
  | pop i =>
    simp only [Queues.step] at h
    split at h
    · rename_i n hq
      simp only [Option.some.injEq] at h; subst h
      have h2 := overQueues_set OneQueue.isPushed _ _ _ ⟨n, .popped⟩ hq
      have h4 := overQueues_set OneQueue.isBound _ _ _ ⟨n, .popped⟩ hq
      simp only [OneQueue.isPushed, OneQueue.isBound] at h2 h4
      simp only [OneQueue.isPushed, OneQueue.isBound] at hb ⊢
      omega
    · exact absurd h (by simp)
  | uncount i =>
    simp only [Queues.step] at h
    split at h
    · rename_i n hq
      simp only [Option.some.injEq] at h; subst h
      have h2 := overQueues_set OneQueue.isPushed _ _ _ ⟨n, .free⟩ hq
      have h4 := overQueues_set OneQueue.isBound _ _ _ ⟨n, .free⟩ hq
      simp only [OneQueue.isPushed, OneQueue.isBound] at h2 h4
      simp only [OneQueue.isPushed, OneQueue.isBound] at hb ⊢
      omega
    · exact absurd h (by simp)

/-- **C83, the limit, as far as it holds.**  If every call that puts an entry into one of `n` queues has a limit, never
above `M`, then at no time do more than `M + n - 1` entries wait.  (What is missing to `M`: the look at the counter and
its change are under the lock of the queue, not of the counter; see `C83_over_limit`.) -/
theorem C83_limit_partial (n M : Nat) (acts : List QueueAct) (s : Queues) (h : (emptyQueues n).run acts = some s)
    (hm : ∀ i max, .look i max ∈ acts → 0 < max ∧ max ≤ M) (hfit : M + n ≤ 4294967296) :
    s.waiting ≤ M - 1 + n := by
  have gen : ∀ (acts : List QueueAct) (s0 s : Queues), s0.run acts = some s →
      (∀ i max, .look i max ∈ acts → 0 < max ∧ max ≤ M) → s0.queues.length = n →
      s0.counter + overQueues OneQueue.isPushed s0.queues + overQueues OneQueue.isBound s0.queues ≤ M - 1 + n →
      s.counter + overQueues OneQueue.isPushed s.queues + overQueues OneQueue.isBound s.queues ≤ M - 1 + n := by
    intro acts
    induction acts with
    | nil => intro s0 s h _ _ hb; cases h; exact hb
    | cons a as ih =>
      intro s0 s h hm hl hb
      unfold Queues.run at h
      split at h
      · exact absurd h (by simp)
      · rename_i s1 h1
        exact ih s1 s h (fun i max hi => hm i max (List.mem_cons_of_mem _ hi))
          (by rw [length_step s0 s1 a h1, hl])
          (limit_step s0 s1 a M n h1 (fun i max e => hm i max (by rw [e]; exact List.mem_cons_self)) hfit hl hb)
  have hb := gen acts _ s h hm (by simp [emptyQueues]) (by
    simp only [emptyQueues]
    rw [overQueues_replicate _ _ _ rfl, overQueues_replicate _ _ _ rfl]
    omega)
  obtain ⟨he, -⟩ := counted_run acts _ s h (counted_empty n)
  omega

/-- One queue keeps the limit. -/
theorem C83_one_queue (M : Nat) (acts : List QueueAct) (s : Queues) (h : (emptyQueues 1).run acts = some s)
    (hm : ∀ i max, .look i max ∈ acts → 0 < max ∧ max ≤ M) (hM : 0 < M) (hfit : M < 4294967296) : s.waiting ≤ M := by
  have := C83_limit_partial 1 M acts s h hm (by omega)
  omega

/-- **C83, the limit is not kept**: with a limit of one, three entries wait in three queues, each put there by a call that
had that limit. -/
theorem C83_over_limit : ∃ acts s, (emptyQueues 3).run acts = some s ∧
    (∀ i max, .look i max ∈ acts → max = 1) ∧ s.quiet ∧ s.waiting = 3 := by
  refine ⟨[.look 0 1, .look 1 1, .look 2 1, .push 0, .count 0, .push 1, .count 1, .push 2, .count 2], _, rfl, ?_, ?_, rfl⟩
  · intro i max h
    simp only [List.mem_cons, QueueAct.look.injEq, List.not_mem_nil, or_false, reduceCtorEq] at h
    rcases h with ⟨_, e⟩ | ⟨_, e⟩ | ⟨_, e⟩ <;> exact e
  · intro q hq
    simp only [emptyQueues, List.replicate, List.set_cons_zero, List.set_cons_succ, List.mem_cons, List.not_mem_nil,
      or_false] at hq
    rcases hq with e | e | e <;> rw [e]

/-- **C83, a call is refused only near the limit**: at the look that makes `enqueue` refuse, at least as many entries waited
as the limit says, up to one for each other queue.  (A counter of 2^32 and more is out of reach here.) -/
theorem C83_refused (n : Nat) (acts : List QueueAct) (s s1 s2 : Queues) (i max : Nat)
    (h : (emptyQueues n).run acts = some s) (h1 : s.step (.look i max) = some s1) (h2 : s1.step (.push i) = some s2)
    (hr : s2.refused = s.refused + 1) : 0 < max ∧ max ≤ s.waiting + (n - 1) := by
  obtain ⟨he, -⟩ := counted_run acts _ s h (counted_empty n)
  have hl := length_run acts _ s h
  simp only [emptyQueues, List.length_replicate] at hl
  simp only [Queues.step] at h1
  split at h1
  · rename_i k hq
    have hlt : i < s.queues.length := by
      rcases Nat.lt_or_ge i s.queues.length with g | g
      · exact g
      · rw [List.getElem?_eq_none g] at hq; exact absurd hq (by simp)
    simp only [Option.some.injEq] at h1; subst h1
    simp only [Queues.step, List.getElem?_set_self hlt] at h2
    by_cases g : mayPush (if 0 < max then s.counter % 4294967296 else 0) max = true
    · rw [if_pos g] at h2; simp only [Option.some.injEq] at h2; subst h2; simp at hr
    · simp only [mayPush, Bool.or_eq_true, decide_eq_true_eq, not_or] at g
      obtain ⟨g1, g2⟩ := g
      rw [if_pos (by omega)] at g2
      have hmod := Nat.mod_le s.counter 4294967296
      have hall := overQueues_le OneQueue.isPopped (fun _ => 1) (s.queues.set i ⟨k, .popped⟩)
        (fun q => by unfold OneQueue.isPopped; split <;> omega)
      rw [overQueues_one, List.length_set, hl] at hall
      have h3 := overQueues_set OneQueue.isPopped _ _ _ ⟨k, .popped⟩ hq
      have e1 : OneQueue.isPopped ⟨k, .popped⟩ = 1 := rfl
      have e2 : OneQueue.isPopped ⟨k, .free⟩ = 0 := rfl
      rw [e1, e2] at h3
      omega
  · exact absurd h1 (by simp)

/-- A call is refused, one is let in after an entry has been taken. -/
example : ∃ s, (emptyQueues 2).run [.look 0 1, .push 0, .count 0, .look 1 1, .push 1, .pop 0, .uncount 0,
    .look 1 1, .push 1, .count 1] = some s ∧ s.refused = 1 ∧ s.waiting = 1 ∧ s.counter = 1 :=
  ⟨_, rfl, rfl, rfl, rfl⟩

/-- **C83, entries that are not limited.**  A call without a limit is never refused, and its entries count for the others:
those of the controller, of the replication to MySQL and to another cluster, and of broadcasts. -/
theorem C83_unlimited (s s1 : Queues) (i n : Nat) (hq : s.queues[i]? = some ⟨n, .free⟩)
    (h1 : s.step (.look i 0) = some s1) :
    ∃ s2 s3, s1.step (.push i) = some s2 ∧ s2.step (.count i) = some s3 ∧ s3.refused = s.refused ∧
      s3.waiting = s.waiting + 1 ∧ s3.counter = s.counter + 1 := by
  have hlt : i < s.queues.length := by
    rcases Nat.lt_or_ge i s.queues.length with g | g
    · exact g
    · rw [List.getElem?_eq_none g] at hq; exact absurd hq (by simp)
  simp only [Queues.step, hq, Nat.lt_irrefl, if_false, Option.some.injEq] at h1
  subst h1
  have h2 : ({ queues := s.queues.set i ⟨n, .looked 0 0⟩, counter := s.counter, refused := s.refused } : Queues).step
      (.push i) = some { s with queues := s.queues.set i ⟨n + 1, .pushed⟩ } := by
    simp only [Queues.step, List.getElem?_set_self hlt, mayPush, decide_true, Bool.true_or, if_true, List.set_set]
  refine ⟨_, { s with queues := s.queues.set i ⟨n + 1, .free⟩, counter := s.counter + 1 }, h2, ?_, rfl, ?_, rfl⟩
  · simp only [Queues.step, List.getElem?_set_self hlt, List.set_set]
  · have := overQueues_set OneQueue.len _ _ _ ⟨n + 1, .free⟩ hq
    simp only [Queues.waiting]
    dsimp only at this
    omega

end Flare
