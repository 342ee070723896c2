import Verif.Lemmas.Halt

/-! C91: a node that is stopped in order loses no write it has acknowledged, closes its storage last, and the stop ends. -/
namespace Flare

/-- Whatever happens, every write that is executed is meant for one sender, in the order of execution; what a sender has sent is
a beginning of what it was given, and the rest is in its hands, forgotten, thrown away, still waiting or was refused. -/
theorem C91_accounted (sync : Bool) (n m : Nat) (evs : List HaltEv) :
    let s := (Halt.start sync n m).run evs
    (∀ j, (s.sender j).given = (s.sender j).sent ++ (s.sender j).hand ++ (s.sender j).stranded ++ (s.sender j).dropped ++
      (s.sender j).queue ++ (s.sender j).refused) ∧
    (∀ j, (s.sender j).given.Pairwise (· < ·)) ∧
    (∀ w, w < s.executed ↔ ∃ j, j < m ∧ w ∈ (s.sender j).given) ∧
    (∀ j k w, w ∈ (s.sender j).given → w ∈ (s.sender k).given → j = k) := by
  have h := numbered sync n m evs
  obtain ⟨_, _, es⟩ := run_conf (Halt.start sync n m) evs
  refine ⟨fun j => (sender_sound sync n m evs j).acct, h.sorted, fun w => ⟨fun hw => ?_, fun ⟨j, _, hj⟩ => h.lt j w hj⟩, h.apart⟩
  obtain ⟨j, hj, hw⟩ := h.cover w hw
  exact ⟨j, by rw [es] at hj; exact hj, hw⟩

/-- If the copies are waited for, nobody is killed and every thread is waited for: whatever was acknowledged has been sent, and
when the threads of the clients are gone, everything that was executed was acknowledged. -/
theorem C91_none_lost_partial (n m : Nat) (evs : List HaltEv) (hp : ∀ ev ∈ evs, ev.patient) :
    let s := (Halt.start true n m).run evs
    (∀ w, w ∈ s.acked → ∃ j, j < m ∧ w ∈ (s.sender j).sent) ∧
    (s.main.clerksGone = true → (∀ w, w < s.executed → w ∈ s.acked) ∧
      ∀ j, (s.sender j).queue = [] ∧ (s.sender j).hand = [] ∧ (s.sender j).stranded = [] ∧ (s.sender j).dropped = [] ∧
        (s.sender j).refused = []) := by
  intro s
  have h : s.Kept := (Halt.Kept.start n m).run evs hp
  obtain ⟨_, _, es⟩ := run_conf (Halt.start true n m) evs
  have es : s.senders = m := es
  have all : s.main.clerksGone = true → ∀ w, w < s.executed → w ∈ s.acked := by
    intro hg w hw
    rcases h.num.open_ w hw with h' | ⟨i, j, hi, hj⟩
    · exact h'
    · rw [h.tidy.clerks hg i hi] at hj; cases hj
  refine ⟨fun w hw => by obtain ⟨j, hj, hs⟩ := h.sent w hw; exact ⟨j, es ▸ hj, hs⟩, fun hg => ⟨all hg, fun j => ?_⟩⟩
  have acct := (h.tidy.sound j).acct
  have key : ∀ w, w ∈ (s.sender j).given → w ∈ (s.sender j).sent := by
    intro w hw
    obtain ⟨k, _, hs⟩ := h.sent w (all hg w (h.num.lt j w hw))
    have hk : w ∈ (s.sender k).given := by
      rw [(h.tidy.sound k).acct]; simp [hs]
    rw [h.num.apart j k w hw hk]; exact hs
  have srt := h.num.sorted j
  have empty : ∀ l : List Nat, (∃ t, (s.sender j).given = (s.sender j).sent ++ t ∧ ∀ x ∈ l, x ∈ t) → l = [] := by
    intro l ⟨t, ht, hl⟩
    cases l with
    | nil => rfl
    | cons x l =>
      have hx : x ∈ t := hl x List.mem_cons_self
      have hs := key x (by rw [ht]; simp [hx])
      rw [ht, List.pairwise_append] at srt
      exact absurd (srt.2.2 x hs x hx) (Nat.lt_irrefl x)
  have ht : (s.sender j).given = (s.sender j).sent ++ ((s.sender j).hand ++ (s.sender j).stranded ++ (s.sender j).dropped ++
      (s.sender j).queue ++ (s.sender j).refused) := by rw [acct]; simp
  exact ⟨empty _ ⟨_, ht, fun x hx => by simp [hx]⟩, empty _ ⟨_, ht, fun x hx => by simp [hx]⟩,
    empty _ ⟨_, ht, fun x hx => by simp [hx]⟩, empty _ ⟨_, ht, fun x hx => by simp [hx]⟩,
    empty _ ⟨_, ht, fun x hx => by simp [hx]⟩⟩

/-- Under the same conditions, but also if copies are not waited for: the storage is closed when all threads have ended, and
nobody uses it afterwards. -/
theorem C91_storage_last_partial (sync : Bool) (n m : Nat) (evs : List HaltEv) (hp : ∀ ev ∈ evs, ev.patient) :
    let s := (Halt.start sync n m).run evs
    s.bad = false ∧ (s.main.storageClosed = true →
      (∀ i, i < n → (s.clerk i).loc = .ended) ∧ ∀ j, j < m → (s.sender j).loc = .ended) := by
  intro s
  obtain ⟨_, ec, es⟩ := run_conf (Halt.start sync n m) evs
  have ht : s.Tidy := (Halt.Tidy.start sync n m).run evs hp
  refine ⟨?_, fun hc => ⟨fun i hi => ht.clerks ?_ i (by show i < s.clerks; rw [ec]; exact hi),
    fun j hj => ht.senders ?_ j (by show j < s.senders; rw [es]; exact hj)⟩⟩
  · exact (Halt.run_ind (P := fun t => t.Tidy ∧ t.bad = false) (q := HaltEv.patient)
      (fun t ev hq h => ⟨h.1.step ev hq, by
        cases step_effect t ev with
        | quiet _ _ _ hb => rw [hb]; exact h.2
        | use i j hi hl hc _ =>
          have : t.main.clerksGone = true := by cases hm : t.main <;> simp_all [MainAt.storageClosed, MainAt.clerksGone]
          rw [h.1.clerks this i hi] at hl; cases hl
        | wait _ _ _ _ _ _ _ _ _ _ _ hb => rw [hb]; exact h.2
        | tell _ _ _ _ _ _ _ _ _ _ hb => rw [hb]; exact h.2
        | answer _ _ _ _ _ _ hs => rw [hs]; exact h.2⟩) evs _ hp ⟨.start sync n m, rfl⟩).2
  · cases hm : s.main <;> simp_all [MainAt.storageClosed, MainAt.clerksGone]
  · cases hm : s.main <;> simp_all [MainAt.storageClosed, MainAt.sendersGone]

/-- Once the stop has begun, it ends, whatever the other threads do, if the main thread does not wait for ever: at most
`ahead` of its steps are left. -/
theorem C91_ends (s : Halt) (evs : List HaltEv) (hs : s.main.stopping = true) (h : s.ahead ≤ evs.countP HaltEv.isGiveUp) :
    (s.run evs).main = .gone := by
  obtain ⟨_, h2⟩ := run_ahead evs s hs
  have : (s.run evs).ahead = 0 := by omega
  unfold Halt.ahead at this
  cases hm : (s.run evs).main <;> simp [hm] at this <;> first | rfl | omega

/-- The waits of the stop take at most 60 seconds for each thread. -/
theorem C91_time (sync : Bool) (n m : Nat) (evs : List HaltEv) :
    ((Halt.start sync n m).run evs).spent ≤ 60 * (n + m) := by
  have h := timed sync n m evs
  obtain ⟨_, ec, es⟩ := run_conf (Halt.start sync n m) evs
  generalize (Halt.start sync n m).run evs = s at *
  have ec : s.clerks = n := ec
  have es : s.senders = m := es
  have hw : s.waited ≤ n + m := by
    unfold Halt.waited
    cases hm : s.main with
    | clerk k => have := h.clerk k hm; simp only; omega
    | clerkWait k => have := h.clerkWait k hm; simp only; omega
    | sender k => have := h.sender k hm; simp only; omega
    | senderWait k => have := h.senderWait k hm; simp only; omega
    | _ => simp only; omega
  exact Nat.le_trans h.spent (Nat.mul_le_mul_left 60 hw)

/-- If copies are not waited for, every write that is executed is acknowledged at once. -/
theorem C91_async_answered (n m : Nat) (evs : List HaltEv) (w : Nat) (h : w < ((Halt.start false n m).run evs).executed) :
    w ∈ ((Halt.start false n m).run evs).acked := by
  have nw : ∀ i v j, (((Halt.start false n m).run evs).clerk i).loc ≠ .waiting v j :=
    (Halt.run_ind (P := fun t => t.sync = false ∧ ∀ i v j, (t.clerk i).loc ≠ .waiting v j) (q := fun _ => True)
      (fun t ev _ ht => ⟨by rw [(step_conf t ev).1]; exact ht.1, fun i v j hh => by
        have mv := clerk_move t ev i
        have h0 := ht.2 i
        generalize (t.step ev).clerk i = c' at mv hh
        generalize t.clerk i = c at mv h0
        cases mv with
        | same => exact h0 v j hh
        | go l _ hl => rcases hl with e | e | e | e | e | e <;> (subst e; cases hh)
        | work _ _ _ => cases hh
        | wait _ _ hs => rw [ht.1] at hs; cases hs
        | stop _ _ => cases hh
        | ask _ => exact h0 v j ((ask_waiting c v j).2 hh)
        | kill _ _ => cases hh⟩) evs _ (fun _ _ => trivial) ⟨rfl, fun _ _ _ h => by cases h⟩).2
  rcases (numbered false n m evs).open_ w h with h' | ⟨i, j, _, hj⟩
  · exact h'
  · exact absurd hj (nw i w j)

/-- **The code drops copies.**  Whatever waits in the queue of a sender when it is asked to stop is never sent, in no
continuation; at most the copy in its hands still is. -/
theorem C91_never_sent (sync : Bool) (n m : Nat) (evs evs' : List HaltEv) (j : Nat)
    (ha : (((Halt.start sync n m).run evs).sender j).asked = true) :
    let s := (Halt.start sync n m).run evs
    (∀ w, w ∈ (s.sender j).queue → ∀ k, w ∉ ((s.run evs').sender k).sent) ∧
    ((s.run evs').sender j).sent.length ≤ (s.sender j).sent.length + 1 := by
  intro s
  have hl := last_run s evs' j ha
  constructor
  · intro w hw k hk
    have num' : (s.run evs').Numbered := by
      have := numbered sync n m (evs ++ evs'); rw [haltRun_append] at this; exact this
    have snd' : ∀ j, ((s.run evs').sender j).Sound := by
      intro j; have := sender_sound sync n m (evs ++ evs') j; rw [haltRun_append] at this; exact this
    have given' : w ∈ ((s.run evs').sender j).given := by
      have hg : w ∈ (s.sender j).given := by rw [(sender_sound sync n m evs j).acct]; simp [show w ∈ (((Halt.start sync n m).run evs).sender j).queue from hw]
      refine Halt.run_ind (P := fun t => w ∈ (t.sender j).given) (q := fun _ => True) (fun t ev _ ht => ?_) evs' s
        (fun _ _ => trivial) hg
      cases step_effect t ev with
      | quiet _ _ _ _ hg => rw [hg]; exact ht
      | use _ _ _ _ _ hs => rw [hs]; exact ht
      | wait _ _ _ _ _ _ _ _ _ _ _ _ hg hg' => exact given_sub hg hg' j w ht
      | tell _ _ _ _ _ _ _ _ _ _ _ hg hg' => exact given_sub hg hg' j w ht
      | answer _ _ _ _ _ _ hs => rw [hs]; exact ht
    have e : k = j := num'.apart k j w (by rw [(snd' k).acct]; simp [hk]) given'
    subst e
    have : w ∈ (s.sender k).sent ++ (s.sender k).now := by rw [← hl]; simp [hk]
    have srt := (numbered sync n m evs).sorted k
    rw [(sender_sound sync n m evs k).acct] at srt
    have hb : w ∈ (s.sender k).sent ++ (s.sender k).hand := by
      rw [List.mem_append] at this ⊢
      exact this.imp_right (now_hand _ _)
    simp only [List.append_assoc] at srt
    rw [← List.append_assoc, List.pairwise_append] at srt
    exact absurd (srt.2.2 w hb w (by simp [show w ∈ (((Halt.start sync n m).run evs).sender k).queue from hw])) (Nat.lt_irrefl w)
  · have := congrArg List.length hl
    simp only [List.length_append] at this
    have : (s.sender j).now.length ≤ 1 := by unfold Sender.now; split <;> simp
    omega

/-- **A sender can miss the request to stop.**  If it has looked at the flag and not yet gone to sleep, and its queue is empty,
it sleeps for ever: the main thread gets on only by waiting until its time is up. -/
theorem C91_sender_sleeps_on (s : Halt) (k : Nat) (evs : List HaltEv) (hm : s.main = .senderWait k)
    (hl : (s.sender k).loc = .looking ∨ (s.sender k).loc = .asleep) (hq : (s.sender k).queue = [])
    (hs : (s.sender k).shut = false) (hc : ∀ i, i < s.clerks → (s.clerk i).loc = .ended)
    (hw : ∀ ev ∈ evs, ev.waits ∧ ev ≠ .spurious k) : (s.run evs).main = .senderWait k := by
  refine (Halt.run_ind (P := fun t => t.main = .senderWait k ∧ ((t.sender k).loc = .looking ∨ (t.sender k).loc = .asleep) ∧
      (t.sender k).queue = [] ∧ (t.sender k).shut = false ∧ ∀ i, i < t.clerks → (t.clerk i).loc = .ended)
    (q := fun ev => ev.waits ∧ ev ≠ .spurious k) (fun t ev hq h => ?_) evs s hw ⟨hm, hl, hq, hs, hc⟩).1
  obtain ⟨a, b, c, d, e⟩ := h
  have e' : ∀ i, i < (t.step ev).clerks → ((t.step ev).clerk i).loc = .ended := by
    intro i hi; rw [(step_conf t ev).2.1] at hi; exact (clerk_move t ev i).ended (e i hi)
  have mm := main_move t ev hq.1
  have main' : (t.step ev).main = .senderWait k := by
    generalize hx : (t.step ev).main = m' at mm
    cases mm with
    | same => exact a
    | early _ h _ => rw [a] at h; rcases h with h | h <;> cases h
    | nextSender k' h h' => rw [a] at h; cases h; rw [d] at h'; cases h'
    | told h | askClerk _ h _ | nextClerk _ h _ | toSenders _ h _ | askSender _ h _ | clear _ h _ | close h | exit h =>
      rw [a] at h; cases h
  refine ⟨main', ?_⟩
  have hg : ((t.step ev).sender k).given = (t.sender k).given := by
    cases step_effect t ev with
    | quiet _ _ _ _ hg => exact hg k
    | use i j hi h => rw [e i hi] at h; cases h
    | wait i j hi h => rw [e i hi] at h; cases h
    | tell i j hi h => rw [e i hi] at h; cases h
    | answer i w j hi h => rw [e i hi] at h; cases h
  have mv := sender_move t ev k
  generalize (t.step ev).sender k = x' at mv hg ⊢
  generalize t.sender k = x at mv b c d hg
  cases mv with
  | same => exact ⟨b, c, d, e'⟩
  | ask h => rw [a] at h; cases h
  | spurious _ h => exact absurd h hq.2
  | push _ => exact absurd hg (by simp)
  | refuse _ => exact absurd hg (by simp)
  | step =>
    unfold Sender.step
    rcases b with b | b
    · simp only [b, c]; exact ⟨.inr trivial, trivial, d, e'⟩
    · simp only [b, c]; exact ⟨.inr trivial, trivial, d, e'⟩

/-- **A client that leaves can block the stop.**  A thread that had nobody asking it to stop when its client left waits for the
lock that the main thread holds while it waits for this thread: the main thread gets on only when its time is up. -/
theorem C91_leaving_blocks (s : Halt) (k : Nat) (evs : List HaltEv) (hm : s.main = .clerkWait k)
    (hl : (s.clerk k).loc = .cleaning) (hs : (s.clerk k).shut = false) (hw : ∀ ev ∈ evs, ev.waits) :
    (s.run evs).main = .clerkWait k ∧ ((s.run evs).clerk k).loc = .cleaning := by
  have := Halt.run_ind (P := fun t => t.main = .clerkWait k ∧ (t.clerk k).loc = .cleaning ∧ (t.clerk k).shut = false)
    (q := HaltEv.waits) (fun t ev hq h => ?_) evs s hw ⟨hm, hl, hs⟩
  · exact ⟨this.1, this.2.1⟩
  obtain ⟨a, b, c⟩ := h
  have put : ∀ (i : Nat) (x : Clerk), (t.clerk i).loc ≠ .cleaning → (t.setClerk i x).clerk k = t.clerk k := by
    intro i x hi
    rw [setClerk_clerk, if_neg]
    intro e; subst e; exact hi b
  have fine : ∀ t' : Halt, t'.main = t.main → t'.clerk k = t.clerk k →
      t'.main = .clerkWait k ∧ (t'.clerk k).loc = .cleaning ∧ (t'.clerk k).shut = false := by
    intro t' h1 h2; rw [h1, h2]; exact ⟨a, b, c⟩
  have ng : t.main ≠ .gone := by rw [a]; simp
  unfold Halt.step
  rw [if_neg ng]
  cases ev with
  | giveUp d => exact absurd hq id
  | term => exact fine _ (if_neg (by rw [a]; simp)) rfl
  | connect i => simp only; rw [if_neg (by rw [a]; simp)]; exact fine t rfl rfl
  | request i j =>
    simp only; split
    · rename_i h; exact fine _ rfl (put i _ (by rw [h.2.2]; simp))
    · exact fine t rfl rfl
  | hangup i =>
    simp only; split
    · rename_i h; exact fine _ rfl (put i _ (by rw [h.2]; simp))
    · exact fine t rfl rfl
  | kill i =>
    simp only; split
    · rename_i h; exact fine _ rfl (put i _ (by rw [h.2.1]; simp))
    · exact fine t rfl rfl
  | clerk i =>
    simp only; split
    · refine fine _ (clerkStep_main t i) ?_
      by_cases e : k = i
      · subst e; simp only [Halt.clerkStep, b, a, MainAt.holdsMap]; rfl
      · exact clerkStep_other t i k e
    · exact fine t rfl rfl
  | sender j => simp only; split <;> exact fine _ rfl rfl
  | spurious j => simp only; split <;> exact fine _ rfl rfl
  | main d =>
    refine fine _ ?_ ?_
    · simp [Halt.mainStep, a, c]
    · simp [Halt.mainStep, a, c]

/-- **The signal can be missed.**  If it comes between the look at the flag and `epoll_wait`, the node goes on until the next
client connects or the next signal comes. -/
theorem C91_signal_missed (s : Halt) (evs : List HaltEv) (hm : s.main = .before ∨ s.main = .accept)
    (hw : ∀ ev ∈ evs, ev ≠ .term ∧ ∀ i, ev ≠ .connect i) : (s.run evs).main.stopping = false := by
  have := Halt.run_ind (P := fun t => t.main = .before ∨ t.main = .accept) (q := fun ev => ev ≠ .term ∧ ∀ i, ev ≠ .connect i)
    (fun t ev hq h => ?_) evs s hw hm
  · rcases this with h | h <;> rw [h] <;> rfl
  have ng : t.main ≠ .gone := by rcases h with h | h <;> rw [h] <;> simp
  unfold Halt.step
  rw [if_neg ng]
  cases ev with
  | term => exact absurd rfl hq.1
  | connect i => exact absurd rfl (hq.2 i)
  | request i j => simp only; split <;> exact h
  | hangup i => simp only; split <;> exact h
  | kill i => simp only; split <;> exact h
  | clerk i => simp only; split; rw [clerkStep_main]; exact h; exact h
  | sender j => simp only; split <;> exact h
  | spurious j => simp only; split <;> exact h
  | main d => rcases h with h | h <;> simp [Halt.mainStep, h]
  | giveUp d => rcases h with h | h <;> simp [Halt.mainStep, h]

/-! Runs with one thread for clients and one sender. -/

/-- A client connects, and its thread reads. -/
def haltConnect : List HaltEv := [.main 0, .main 0, .connect 0, .main 0, .main 0, .clerk 0]

/-- A write is executed. -/
def haltWrite : List HaltEv := [.request 0 0, .clerk 0]

/-- The stop, up to the request to the first thread for clients. -/
def haltBegin : List HaltEv := [.term, .main 0, .main 0, .main 0]

/-- The thread for clients and the sender are asked and end, then the rest. -/
def haltEnd : List HaltEv :=
  [.main 0, .clerk 0, .main 1, .main 0, .main 0, .sender 0, .main 1, .main 0, .sender 0, .main 0, .main 0]

/-- The conditions can be met, and then a write arrives: the stop of a node with a client that is told. -/
example :
    let evs := haltConnect ++ haltWrite ++ [.sender 0, .sender 0, .sender 0, .sender 0, .clerk 0, .clerk 0, .clerk 0] ++ haltBegin ++ haltEnd
    let s := (Halt.start true 1 1).run evs
    s.main = .gone ∧ s.acked = [0] ∧ (s.sender 0).sent = [0] ∧ s.spent = 2 ∧ s.bad = false ∧ (∀ ev ∈ evs, ev.patient) := by
  refine ⟨by decide +kernel, by decide +kernel, by decide +kernel, by decide +kernel, by decide +kernel, ?_⟩
  simp [haltConnect, haltWrite, haltBegin, haltEnd, HaltEv.patient]

/-- **Acknowledged writes are lost by an orderly stop** if copies are not waited for, although everybody is waited for. -/
theorem C91_async_lost :
    ∃ evs : List HaltEv, (∀ ev ∈ evs, ev.patient) ∧
      ((Halt.start false 1 1).run evs).main = .gone ∧ ((Halt.start false 1 1).run evs).acked = [0] ∧
      (((Halt.start false 1 1).run evs).sender 0).sent = [] ∧ (((Halt.start false 1 1).run evs).sender 0).dropped = [0] :=
  ⟨haltConnect ++ haltWrite ++ [.clerk 0, .clerk 0] ++ haltBegin ++ haltEnd,
    by simp [haltConnect, haltWrite, haltBegin, haltEnd, HaltEv.patient],
    by decide +kernel, by decide +kernel, by decide +kernel, by decide +kernel⟩

/-- **The node acknowledges writes after it has reported itself as down**, and loses them. -/
theorem C91_answers_when_down :
    ∃ evs : List HaltEv, (∀ ev ∈ evs, ev.patient) ∧
      ((Halt.start false 1 1).run evs).main = .gone ∧ ((Halt.start false 1 1).run evs).lateAcks = [0] ∧
      (((Halt.start false 1 1).run evs).sender 0).sent = [] :=
  ⟨haltConnect ++ haltBegin ++ haltWrite ++ [.clerk 0, .clerk 0] ++ haltEnd,
    by simp [haltConnect, haltWrite, haltBegin, haltEnd, HaltEv.patient],
    by decide +kernel, by decide +kernel, by decide +kernel⟩

/-- **A copy that is waited for is lost all the same** when the main thread has waited 60 seconds for the thread that waits: the
entry is thrown away with the sender, and that wakes the thread, which answers as if it had been sent. -/
theorem C91_late_sender_lost :
    ∃ evs : List HaltEv, (∀ ev ∈ evs, ∀ i, ev ≠ .kill i) ∧
      ((Halt.start true 1 1).run evs).acked = [0] ∧ (((Halt.start true 1 1).run evs).sender 0).sent = [] ∧
      (((Halt.start true 1 1).run evs).sender 0).dropped = [0] :=
  ⟨haltConnect ++ haltWrite ++ haltBegin ++
      [.main 0, .giveUp 60, .main 0, .main 0, .sender 0, .main 0, .main 0, .sender 0, .clerk 0],
    by simp [haltConnect, haltWrite, haltBegin],
    by decide +kernel, by decide +kernel, by decide +kernel⟩

theorem late_step (t : Halt) (ev : HaltEv) (h : t.main = .shut ∨ t.main = .gone) :
    (t.step ev).main = .shut ∨ (t.step ev).main = .gone := by
  unfold Halt.step
  rcases h with h | h
  · rw [if_neg (by rw [h]; simp)]
    cases ev with
    | term => left; simp [h]
    | connect i => simp [h]
    | request i j => left; simp only; split <;> exact h
    | hangup i => left; simp only; split <;> exact h
    | kill i => left; simp only; split <;> exact h
    | clerk i => left; simp only; split; rw [clerkStep_main]; exact h; exact h
    | sender j => left; simp only; split <;> exact h
    | spurious j => left; simp only; split <;> exact h
    | main d => right; simp [Halt.mainStep, h]
    | giveUp d => right; simp [Halt.mainStep, h]
  · rw [if_pos h]; exact .inr h

/-- Whatever happens, the storage is used wrongly only in the short time between its end and that of the process. -/
theorem C91_bad_only_late (sync : Bool) (n m : Nat) (evs : List HaltEv) :
    let s := (Halt.start sync n m).run evs
    s.bad = true → s.main = .shut ∨ s.main = .gone := by
  refine Halt.run_ind (P := fun t => t.bad = true → t.main = .shut ∨ t.main = .gone) (q := fun _ => True) (fun t ev _ h => ?_)
    evs _ (fun _ _ => trivial) (fun h => by cases h)
  intro hb'
  by_cases hb : t.bad = true
  · exact late_step t ev (h hb)
  · have : t.main = .shut ∨ t.main = .gone := by
      have eff := step_effect t ev
      generalize t.step ev = t' at *
      cases eff with
      | quiet _ _ _ e => rw [e] at hb'; exact absurd hb' hb
      | use i j _ _ hc _ => cases hm : t.main <;> simp_all [MainAt.storageClosed]
      | wait _ _ _ _ _ _ _ _ _ _ _ e => rw [e] at hb'; exact absurd hb' hb
      | tell _ _ _ _ _ _ _ _ _ _ e => rw [e] at hb'; exact absurd hb' hb
      | answer _ _ _ _ _ _ e => rw [e] at hb'; exact absurd hb' hb
    exact late_step t ev this

/-- A sender that sleeps, or is anywhere but just before it falls asleep, is reached by the request to stop: after two steps of
its own the main thread goes on.  (`C91_sender_sleeps_on` is the other case.) -/
theorem C91_sender_woken (s : Halt) (k d d' : Nat) (hm : s.main = .sender k) (hk : k < s.senders)
    (hl : (s.sender k).loc = .looking → (s.sender k).queue ≠ []) (he : (s.sender k).loc = .ended → (s.sender k).shut = true) :
    (s.run [.main d, .sender k, .sender k, .main d']).main = .sender (k + 1) := by
  obtain ⟨c, hc⟩ : ∃ c, c = s.sender k := ⟨_, rfl⟩
  rw [← hc] at hl he
  have hshut : (((c.ask).step false).step false).shut = true := by
    obtain ⟨loc, asked, shut, queue, sent, stranded, dropped, refused, given⟩ := c
    cases loc with
    | looking =>
      cases queue with
      | nil => exact absurd rfl (hl rfl)
      | cons w q => rfl
    | asleep => rfl
    | loop => rfl
    | holding w => rfl
    | sending w => rfl
    | ended => exact he rfl
  have h1 : s.step (.main d) = { s.setSender k c.ask with main := .senderWait k } := by
    rw [Halt.step, if_neg (by rw [hm]; simp)]
    simp only [Halt.mainStep, hm, if_pos hk, hc]
  have hstep : ∀ (t : Halt) (x : Sender), t.main = .senderWait k → k < t.senders → t.sender k = x →
      (t.step (.sender k)).main = .senderWait k ∧ k < (t.step (.sender k)).senders ∧
        (t.step (.sender k)).sender k = x.step false := by
    intro t x a b e
    have : t.step (.sender k) = t.setSender k (x.step false) := by
      rw [Halt.step, if_neg (by rw [a]; simp)]
      show (if k < t.senders then t.setSender k ((t.sender k).step t.main.sendersGone) else t) = _
      rw [if_pos b, e, a]
      rfl
    rw [this]
    exact ⟨a, b, by simp [Halt.setSender, setAt]⟩
  obtain ⟨t1, e1⟩ : ∃ t, t = s.step (.main d) := ⟨_, rfl⟩
  have a1 : t1.main = .senderWait k ∧ k < t1.senders ∧ t1.sender k = c.ask := by
    rw [e1, h1]
    exact ⟨rfl, hk, by simp [Halt.setSender, setAt]⟩
  obtain ⟨t2, e2⟩ : ∃ t, t = t1.step (.sender k) := ⟨_, rfl⟩
  have a2 := hstep t1 _ a1.1 a1.2.1 a1.2.2
  rw [← e2] at a2
  obtain ⟨t3, e3⟩ : ∃ t, t = t2.step (.sender k) := ⟨_, rfl⟩
  have a3 := hstep t2 _ a2.1 a2.2.1 a2.2.2
  rw [← e3] at a3
  show (((s.step (.main d)).step (.sender k)).step (.sender k) |>.step (.main d')).main = _
  rw [← e1, ← e2, ← e3, Halt.step, if_neg (by rw [a3.1]; simp)]
  show (t3.mainStep true d').main = _
  simp only [Halt.mainStep, a3.1]
  rw [if_pos (.inl (by rw [a3.2.2]; exact hshut))]

example :
    let s := (Halt.start true 1 1).run ([.sender 0, .sender 0, .main 0, .main 0] ++ haltBegin ++ [.main 0, .clerk 0, .main 0, .main 0])
    s.main = .sender 0 ∧ (s.sender 0).loc = .asleep ∧
      (s.run [.main 0, .sender 0, .sender 0, .main 0]).main = .sender 1 := by decide +kernel

/-- A thread that was asked to stop while it served a request serves no other one: when it has answered, it
takes two steps to its end and says so. -/
theorem C91_asked_clerk_ends (s : Halt) (i : Nat) (ha : (s.clerk i).asked = true)
    (hl : (s.clerk i).loc = .after ∨ (s.clerk i).loc = .left) :
    (((s.clerkStep i).clerkStep i).clerk i).loc = .ended ∧ (((s.clerkStep i).clerkStep i).clerk i).shut = true := by
  rcases hl with hl | hl <;> simp [Halt.clerkStep, Halt.setClerk, setAt, hl, ha]

/-- Asked while it waits for its copy, answered, and gone. -/
example : (((Halt.setClerk (Halt.start true 1 1) 0 { (Halt.start true 1 1).clerk 0 with loc := .after, asked := true }).clerkStep 0).clerkStep
    0).clerk 0 = { (Halt.start true 1 1).clerk 0 with loc := .ended, asked := true, shut := true } := by
  simp [Halt.clerkStep, Halt.setClerk, setAt, Halt.start]

/-- **The storage is closed under a request** although the main thread has waited for everybody: a thread that was killed once
counts as ended for good. -/
theorem C91_storage_in_use :
    ∃ evs : List HaltEv, (∀ ev ∈ evs, ev.waits) ∧ ((Halt.start true 1 1).run evs).bad = true :=
  ⟨haltConnect ++ [.kill 0, .connect 0, .clerk 0, .request 0 0, .main 0, .main 0] ++ haltBegin ++
      [.main 0, .main 0, .main 0, .main 0, .sender 0, .main 0, .main 0, .main 0, .clerk 0],
    by simp [haltConnect, haltBegin, HaltEv.waits], by decide +kernel⟩

/-- The state of `C91_sender_sleeps_on` is reached: the sender has just looked. -/
example :
    let s := (Halt.start true 1 1).run ([.main 0, .main 0] ++ haltBegin ++ [.main 0, .clerk 0, .main 0, .main 0, .sender 0, .main 0])
    s.main = .senderWait 0 ∧ (s.sender 0).loc = .looking ∧ (s.sender 0).queue = [] ∧ (s.sender 0).shut = false ∧
      (s.sender 0).asked = true ∧ s.clerks = 1 ∧ (s.clerk 0).loc = .ended := by decide +kernel

/-- The state of `C91_leaving_blocks` is reached: the client left just before the thread was asked. -/
example :
    let s := (Halt.start true 1 1).run (haltConnect ++ [.hangup 0, .clerk 0] ++ haltBegin ++ [.main 0])
    s.main = .clerkWait 0 ∧ (s.clerk 0).loc = .cleaning ∧ (s.clerk 0).shut = false := by decide +kernel

/-- The state of `C91_signal_missed` is reached with the signal already there. -/
example :
    let s := (Halt.start true 1 1).run [.main 0, .term]
    s.main = .before ∧ s.wanted = true := by decide +kernel

/-- Copies that wait when their sender is asked: three writes, none is sent. -/
example :
    let s := (Halt.start false 1 1).run (haltConnect ++ haltWrite ++ [.clerk 0, .clerk 0] ++ haltWrite ++ [.clerk 0, .clerk 0] ++
      haltWrite ++ [.clerk 0, .clerk 0] ++ haltBegin ++ [.main 0, .clerk 0, .main 0, .main 0, .main 0])
    (s.sender 0).asked = true ∧ (s.sender 0).queue = [0, 1, 2] ∧ s.acked = [0, 1, 2] := by decide +kernel

/-- The stop begins with 10 steps ahead for two threads. -/
example :
    let s := (Halt.start false 1 1).run (haltConnect ++ [.term, .main 0])
    s.main.stopping = true ∧ s.ahead = 10 := by decide +kernel

end Flare
