import Verif.Spec.Halt

/-! Lemmas about the stop of a node. -/
namespace Flare

theorem setAt_same {α : Type} (f : Nat → α) (i : Nat) (x : α) : setAt f i x i = x := by simp [setAt]

theorem setAt_other {α : Type} (f : Nat → α) (i j : Nat) (x : α) (h : j ≠ i) : setAt f i x j = f j := by simp [setAt, h]

/-- What a step of the node can do to a sender. -/
inductive SenderMove (s : Halt) (ev : HaltEv) (j : Nat) : Sender → Sender → Prop
  | same (c) : SenderMove s ev j c c
  | step (c) : SenderMove s ev j c (c.step s.main.sendersGone)
  | ask (c) (h : s.main = .sender j) : SenderMove s ev j c c.ask
  | spurious (c) (h : c.loc = .asleep) (he : ev = .spurious j) : SenderMove s ev j c { c with loc := .loop }
  | push (c) (h : c.loc ≠ .ended) : SenderMove s ev j c { c with given := c.given ++ [s.executed], queue := c.queue ++ [s.executed] }
  | refuse (c) (h : c.loc = .ended) : SenderMove s ev j c { c with given := c.given ++ [s.executed], refused := c.refused ++ [s.executed] }

theorem setClerk_sender (s : Halt) (i : Nat) (c : Clerk) : (s.setClerk i c).sender = s.sender := rfl
theorem setSender_clerk (s : Halt) (i : Nat) (c : Sender) : (s.setSender i c).clerk = s.clerk := rfl
theorem ack_sender (s : Halt) (i w : Nat) : (s.ack i w).sender = s.sender := rfl

theorem setSender_sender (s : Halt) (i j : Nat) (c : Sender) :
    (s.setSender i c).sender j = if j = i then c else s.sender j := rfl

theorem execute_move (s : Halt) (ev : HaltEv) (i j k : Nat) : SenderMove s ev k (s.sender k) ((s.execute i j).sender k) := by
  unfold Halt.execute
  by_cases h1 : s.main.storageClosed
  · rw [if_pos h1]; exact .same _
  rw [if_neg h1]
  by_cases h2 : s.main.sendersGone
  · rw [if_pos h2]; exact .same _
  rw [if_neg h2]
  by_cases h3 : (s.sender j).loc = .ended
  · simp only [if_pos h3, ack_sender, setSender_sender]
    by_cases e : k = j
    · subst e; rw [if_pos rfl]; exact .refuse _ h3
    · rw [if_neg e]; exact .same _
  · simp only [if_neg h3]
    by_cases h4 : s.sync
    · simp only [if_pos h4, setClerk_sender, setSender_sender]
      by_cases e : k = j
      · subst e; rw [if_pos rfl]; exact .push _ h3
      · rw [if_neg e]; exact .same _
    · simp only [if_neg h4, ack_sender, setSender_sender]
      by_cases e : k = j
      · subst e; rw [if_pos rfl]; exact .push _ h3
      · rw [if_neg e]; exact .same _

theorem clerkStep_move (s : Halt) (ev : HaltEv) (i k : Nat) : SenderMove s ev k (s.sender k) ((s.clerkStep i).sender k) := by
  cases h : (s.clerk i).loc with
  | working j => simp only [Halt.clerkStep, h]; exact execute_move s ev i j k
  | waiting w j => simp only [Halt.clerkStep, h]; split <;> exact .same _
  | idle => simp only [Halt.clerkStep, h]; split <;> exact .same _
  | left => simp only [Halt.clerkStep, h]; split <;> exact .same _
  | cleaning => simp only [Halt.clerkStep, h]; split; exact .same _; split <;> exact .same _
  | _ => simp only [Halt.clerkStep, h]; exact .same _

theorem mainStep_move (s : Halt) (ev : HaltEv) (b : Bool) (d k : Nat) : SenderMove s ev k (s.sender k) ((s.mainStep b d).sender k) := by
  cases h : s.main with
  | sender j =>
    simp only [Halt.mainStep, h]; split
    · show SenderMove s ev k (s.sender k) (if k = j then _ else s.sender k)
      by_cases e : k = j
      · subst e; rw [if_pos rfl]; exact .ask _ h
      · rw [if_neg e]; exact .same _
    · exact .same _
  | clerk j => simp only [Halt.mainStep, h]; split <;> exact .same _
  | clerkWait j => simp only [Halt.mainStep, h]; split <;> exact .same _
  | senderWait j => simp only [Halt.mainStep, h]; split <;> exact .same _
  | _ => simp only [Halt.mainStep, h]; exact .same _

theorem sender_move (s : Halt) (ev : HaltEv) (k : Nat) : SenderMove s ev k (s.sender k) ((s.step ev).sender k) := by
  unfold Halt.step
  by_cases hg : s.main = .gone
  · rw [if_pos hg]; exact .same _
  rw [if_neg hg]
  cases ev with
  | term => exact .same _
  | connect i => simp only; split <;> exact .same _
  | request i j => simp only; split <;> exact .same _
  | hangup i => simp only; split <;> exact .same _
  | kill i => simp only; split <;> exact .same _
  | clerk i => simp only; split; exact clerkStep_move s _ i k; exact .same _
  | sender j =>
    simp only; split
    · rw [setSender_sender]
      by_cases e : k = j
      · subst e; rw [if_pos rfl]; exact .step _
      · rw [if_neg e]; exact .same _
    · exact .same _
  | spurious j =>
    simp only; split
    · rename_i h
      rw [setSender_sender]
      by_cases e : k = j
      · subst e; rw [if_pos rfl]; exact .spurious _ h.2.1 rfl
      · rw [if_neg e]; exact .same _
    · exact .same _
  | main d => exact mainStep_move s _ true d k
  | giveUp d => exact mainStep_move s _ false d k

/-- What holds of every sender at all times. -/
structure Sender.Sound (c : Sender) : Prop where
  acct : c.given = c.sent ++ c.hand ++ c.stranded ++ c.dropped ++ c.queue ++ c.refused
  clean : c.loc ≠ .ended → c.stranded = [] ∧ c.dropped = [] ∧ c.refused = []
  shut : c.shut = true ↔ c.loc = .ended
  asked : c.loc = .ended → c.asked = true

theorem Sender.Sound.init : Sender.Sound {} := by
  constructor <;> simp [Sender.hand]

theorem SenderMove.sound {s : Halt} {ev : HaltEv} {j : Nat} {c c' : Sender} (m : SenderMove s ev j c c') (h : c.Sound) : c'.Sound := by
  obtain ⟨h1, h2, h3, h4⟩ := h
  cases m with
  | same => exact ⟨h1, h2, h3, h4⟩
  | ask hm =>
    unfold Sender.ask
    by_cases e : c.loc = .asleep
    · have := h2 (by rw [e]; simp)
      constructor <;> simp_all [Sender.hand]
    · constructor <;> simp_all [Sender.hand]
  | spurious hl _ =>
    have := h2 (by rw [hl]; simp)
    constructor <;> simp_all [Sender.hand]
  | push hl =>
    have := h2 hl
    constructor
    · show c.given ++ [s.executed] = c.sent ++ c.hand ++ c.stranded ++ c.dropped ++ (c.queue ++ [s.executed]) ++ c.refused
      rw [h1]; simp [this]
    · intro _; exact this
    · exact h3
    · exact h4
  | refuse hl =>
    constructor
    · show c.given ++ [s.executed] = c.sent ++ c.hand ++ c.stranded ++ c.dropped ++ c.queue ++ (c.refused ++ [s.executed])
      rw [h1]; simp
    · intro h; exact absurd hl h
    · exact h3
    · exact h4
  | step =>
    unfold Sender.step
    cases hl : c.loc with
    | loop =>
      have := h2 (by rw [hl]; simp)
      simp only; split <;> constructor <;> simp_all [Sender.hand]
    | looking =>
      have := h2 (by rw [hl]; simp)
      cases hq : c.queue <;> constructor <;> simp_all [Sender.hand]
    | asleep =>
      have := h2 (by rw [hl]; simp)
      cases hq : c.queue <;> constructor <;> simp_all [Sender.hand]
    | holding w =>
      have := h2 (by rw [hl]; simp)
      simp only; split <;> constructor <;> simp_all [Sender.hand]
    | sending w =>
      have := h2 (by rw [hl]; simp)
      constructor <;> simp_all [Sender.hand]
    | ended => simp only; split <;> constructor <;> simp_all [Sender.hand]

theorem haltRun_append (s : Halt) (a b : List HaltEv) : s.run (a ++ b) = (s.run a).run b := by simp [Halt.run]

theorem Halt.run_ind {P : Halt → Prop} {q : HaltEv → Prop} (hs : ∀ s ev, q ev → P s → P (s.step ev)) :
    ∀ (evs : List HaltEv) (s : Halt), (∀ ev ∈ evs, q ev) → P s → P (s.run evs)
  | [], _, _, h => h
  | ev :: evs, s, hq, h =>
    Halt.run_ind hs evs (s.step ev) (fun e he => hq e (List.mem_cons_of_mem _ he)) (hs s ev (hq ev List.mem_cons_self) h)

theorem sender_sound (sync : Bool) (n m : Nat) (evs : List HaltEv) (j : Nat) :
    (((Halt.start sync n m).run evs).sender j).Sound :=
  Halt.run_ind (P := fun s => ∀ j, (s.sender j).Sound) (q := fun _ => True)
    (fun s ev _ h j => (sender_move s ev j).sound (h j)) evs _ (fun _ _ => trivial) (fun _ => Sender.Sound.init) j

theorem SenderMove.keeps {s : Halt} {ev : HaltEv} {j : Nat} {c c' : Sender} (m : SenderMove s ev j c c') :
    (∃ t, c'.sent = c.sent ++ t) ∧ (c.asked = true → c'.asked = true) ∧ (c.loc = .ended → c'.loc = .ended) ∧
      (c'.asked = true → c.asked = true ∨ s.main = .sender j) := by
  cases m with
  | same => exact ⟨⟨[], by simp⟩, id, id, Or.inl⟩
  | ask hm => exact ⟨⟨[], by simp [Sender.ask]⟩, fun _ => rfl, fun h => by simp [Sender.ask, h], fun _ => Or.inr hm⟩
  | spurious hl _ => exact ⟨⟨[], by simp⟩, id, (fun h => by rw [hl] at h; cases h), Or.inl⟩
  | push hl => exact ⟨⟨[], by simp⟩, id, id, Or.inl⟩
  | refuse hl => exact ⟨⟨[], by simp⟩, id, id, Or.inl⟩
  | step =>
    unfold Sender.step
    cases hl : c.loc with
    | loop => simp only; split <;> exact ⟨⟨[], by simp⟩, fun h => h, (fun h => by cases h), fun h => Or.inl h⟩
    | looking => cases hq : c.queue <;> exact ⟨⟨[], by simp⟩, fun h => h, (fun h => by cases h), fun h => Or.inl h⟩
    | asleep => cases hq : c.queue <;> exact ⟨⟨[], by simp⟩, fun h => h, (fun h => by cases h), fun h => Or.inl h⟩
    | holding w => simp only; split <;> exact ⟨⟨[], by simp⟩, fun h => h, (fun h => by cases h), fun h => Or.inl h⟩
    | sending w => exact ⟨⟨[w], by simp⟩, fun h => h, (fun h => by cases h), fun h => Or.inl h⟩
    | ended => simp only; split <;> exact ⟨⟨[], by simp⟩, fun h => h, (fun h => by simp_all), fun h => Or.inl h⟩

/-- What a step of the node can do to a clerk. -/
inductive ClerkMove (s : Halt) (ev : HaltEv) (i : Nat) : Clerk → Clerk → Prop
  | same (c) : ClerkMove s ev i c c
  | go (c) (l) (h : c.loc ≠ .ended) (hl : l = .loop ∨ l = .reading ∨ l = .after ∨ l = .left ∨ l = .cleaning ∨ l = .idle) :
      ClerkMove s ev i c { c with loc := l }
  | work (c) (j) (h : c.loc = .reading) (hj : j < s.senders) : ClerkMove s ev i c { c with loc := .working j }
  | wait (c) (j) (h : c.loc = .working j) (hs : s.sync = true) : ClerkMove s ev i c { c with loc := .waiting s.executed j }
  | stop (c) (h : ∀ w j, c.loc ≠ .waiting w j) (ha : c.asked = true ∨ s.main.clerksGone = true) :
      ClerkMove s ev i c { c with loc := .ended, shut := true }
  | ask (c) (h : s.main = .clerk i) : ClerkMove s ev i c c.ask
  | kill (c) (h : c.loc = .reading) (he : ¬ ev.patient) : ClerkMove s ev i c { c with loc := .idle, shut := true }

theorem setClerk_clerk (s : Halt) (i j : Nat) (c : Clerk) :
    (s.setClerk i c).clerk j = if j = i then c else s.clerk j := rfl

theorem ack_clerk (s : Halt) (i w j : Nat) :
    (s.ack i w).clerk j = if j = i then { s.clerk i with loc := .after } else s.clerk j := rfl

theorem clerkStep_clerk (s : Halt) (ev : HaltEv) (i k : Nat) :
    ClerkMove s ev k (s.clerk k) ((s.clerkStep i).clerk k) := by
  have put : ∀ c' : Clerk, ClerkMove s ev i (s.clerk i) c' → ClerkMove s ev k (s.clerk k) (if k = i then c' else s.clerk k) := by
    intro c' h
    by_cases e : k = i
    · subst e; rw [if_pos rfl]; exact h
    · rw [if_neg e]; exact .same _
  cases h : (s.clerk i).loc with
  | idle =>
    simp only [Halt.clerkStep, h]; split
    · rename_i ha; exact put _ (.stop _ (by rw [h]; simp) (.inl ha))
    · exact .same _
  | loop => simp only [Halt.clerkStep, h]; exact put _ (.go _ _ (by rw [h]; simp) (by simp))
  | reading => simp only [Halt.clerkStep, h]; exact .same _
  | working j =>
    simp only [Halt.clerkStep, h, Halt.execute]
    split
    · exact .same _
    split
    · exact .same _
    split
    · exact put _ (.go _ _ (by show (s.clerk i).loc ≠ _; rw [h]; simp) (by simp))
    split
    · rename_i hs; exact put _ (.wait _ j h hs)
    · exact put _ (.go _ _ (by show (s.clerk i).loc ≠ _; rw [h]; simp) (by simp))
  | waiting w j =>
    simp only [Halt.clerkStep, h]; split
    · exact put _ (.go _ _ (by rw [h]; simp) (by simp))
    · exact .same _
  | after =>
    simp only [Halt.clerkStep, h]
    refine put _ (.go _ _ (by rw [h]; simp) ?_)
    by_cases ha : (s.clerk i).asked <;> simp [ha]
  | left =>
    simp only [Halt.clerkStep, h]; split
    · rename_i ha; exact put _ (.stop _ (by rw [h]; simp) (.inl ha))
    · exact put _ (.go _ _ (by rw [h]; simp) (by simp))
  | cleaning =>
    simp only [Halt.clerkStep, h]; split
    · exact .same _
    split
    · rename_i hg; exact put _ (.stop _ (by rw [h]; simp) (.inr hg))
    · exact put _ (.go _ _ (by rw [h]; simp) (by simp))
  | ended => simp only [Halt.clerkStep, h]; exact .same _

theorem mainStep_clerk (s : Halt) (ev : HaltEv) (b : Bool) (d k : Nat) :
    ClerkMove s ev k (s.clerk k) ((s.mainStep b d).clerk k) := by
  cases h : s.main with
  | clerk j =>
    simp only [Halt.mainStep, h]; split
    · show ClerkMove s ev k (s.clerk k) (if k = j then _ else s.clerk k)
      by_cases e : k = j
      · subst e; rw [if_pos rfl]; exact .ask _ h
      · rw [if_neg e]; exact .same _
    · exact .same _
  | sender j => simp only [Halt.mainStep, h]; split <;> exact .same _
  | clerkWait j => simp only [Halt.mainStep, h]; split <;> exact .same _
  | senderWait j => simp only [Halt.mainStep, h]; split <;> exact .same _
  | _ => simp only [Halt.mainStep, h]; exact .same _

theorem clerk_move (s : Halt) (ev : HaltEv) (k : Nat) : ClerkMove s ev k (s.clerk k) ((s.step ev).clerk k) := by
  have put : ∀ (i : Nat) (c' : Clerk), ClerkMove s ev i (s.clerk i) c' →
      ClerkMove s ev k (s.clerk k) (if k = i then c' else s.clerk k) := by
    intro i c' h
    by_cases e : k = i
    · subst e; rw [if_pos rfl]; exact h
    · rw [if_neg e]; exact .same _
  unfold Halt.step
  by_cases hg : s.main = .gone
  · rw [if_pos hg]; exact .same _
  rw [if_neg hg]
  cases ev with
  | term => exact .same _
  | connect i =>
    simp only; split
    · rename_i h; exact put _ _ (.go _ _ (by rw [h.2.2]; simp) (by simp))
    · exact .same _
  | request i j =>
    simp only; split
    · rename_i h; exact put _ _ (.work _ _ h.2.2 h.2.1)
    · exact .same _
  | hangup i =>
    simp only; split
    · rename_i h; exact put _ _ (.go _ _ (by rw [h.2]; simp) (by simp))
    · exact .same _
  | kill i =>
    simp only; split
    · rename_i h; exact put _ _ (.kill _ h.2.1 id)
    · exact .same _
  | clerk i => simp only; split; exact clerkStep_clerk s _ i k; exact .same _
  | sender j => simp only; split <;> exact .same _
  | spurious j => simp only; split <;> exact .same _
  | main d => exact mainStep_clerk s _ true d k
  | giveUp d => exact mainStep_clerk s _ false d k

/-- What a step of the node can do to the main thread, if it waits. -/
inductive MainMove (s : Halt) : MainAt → Prop
  | same : MainMove s s.main
  | early (m) (h : s.main.stopping = false ∨ s.main = .closed) (hm : m.stopping = false ∨ m = .closed ∨ m = .told) : MainMove s m
  | told (h : s.main = .told) : MainMove s (.clerk 0)
  | askClerk (k) (h : s.main = .clerk k) (hk : k < s.clerks) : MainMove s (.clerkWait k)
  | nextClerk (k) (h : s.main = .clerkWait k) (hk : (s.clerk k).shut = true) : MainMove s (.clerk (k + 1))
  | toSenders (k) (h : s.main = .clerk k) (hk : ¬ k < s.clerks) : MainMove s (.sender 0)
  | askSender (k) (h : s.main = .sender k) (hk : k < s.senders) : MainMove s (.senderWait k)
  | nextSender (k) (h : s.main = .senderWait k) (hk : (s.sender k).shut = true) : MainMove s (.sender (k + 1))
  | clear (k) (h : s.main = .sender k) (hk : ¬ k < s.senders) : MainMove s .cleared
  | close (h : s.main = .cleared) : MainMove s .shut
  | exit (h : s.main = .shut) : MainMove s .gone

theorem execute_main (s : Halt) (i j : Nat) : (s.execute i j).main = s.main := by
  unfold Halt.execute
  repeat (first | rfl | (split; rfl))
  simp only; split
  · rfl
  · split <;> rfl

theorem clerkStep_main (s : Halt) (i : Nat) : (s.clerkStep i).main = s.main := by
  cases h : (s.clerk i).loc with
  | working j => simp only [Halt.clerkStep, h]; exact execute_main s i j
  | cleaning => simp only [Halt.clerkStep, h]; split; rfl; split <;> rfl
  | idle => simp only [Halt.clerkStep, h]; split <;> rfl
  | waiting w j => simp only [Halt.clerkStep, h]; split <;> rfl
  | left => simp only [Halt.clerkStep, h]; split <;> rfl
  | _ => simp [Halt.clerkStep, h, Halt.setClerk]

theorem main_move (s : Halt) (ev : HaltEv) (hp : ev.waits) : MainMove s (s.step ev).main := by
  unfold Halt.step
  by_cases hg : s.main = .gone
  · rw [if_pos hg]; exact .same
  rw [if_neg hg]
  cases ev with
  | giveUp d => exact absurd hp id
  | term =>
    show MainMove s (if s.main = .accept then .top else s.main)
    by_cases h : s.main = .accept
    · rw [if_pos h]; exact .early _ (.inl (by rw [h]; rfl)) (.inl rfl)
    · rw [if_neg h]; exact .same
  | connect i =>
    simp only; split
    · rename_i h; exact .early _ (.inl (by rw [h.1]; rfl)) (.inl rfl)
    · exact .same
  | request i j => simp only; split <;> exact .same
  | hangup i => simp only; split <;> exact .same
  | kill i => simp only; split <;> exact .same
  | clerk i => simp only; split; rw [clerkStep_main]; exact .same; exact .same
  | sender j => simp only; split <;> exact .same
  | spurious j => simp only; split <;> exact .same
  | main d =>
    show MainMove s (s.mainStep true d).main
    cases h : s.main with
    | top =>
      simp only [Halt.mainStep, h]
      refine .early _ (.inl (by rw [h]; rfl)) ?_
      cases s.wanted <;> simp [MainAt.stopping]
    | before => simp only [Halt.mainStep, h]; exact .early _ (.inl (by rw [h]; rfl)) (by simp [MainAt.stopping])
    | accept => simp only [Halt.mainStep, h]; exact h ▸ .same
    | closed => simp only [Halt.mainStep, h]; exact .early _ (.inr h) (by simp)
    | told => simp only [Halt.mainStep, h]; exact .told h
    | clerk k =>
      simp only [Halt.mainStep, h]; split
      · rename_i hk; exact .askClerk k h hk
      · rename_i hk; exact .toSenders k h hk
    | clerkWait k =>
      simp only [Halt.mainStep, h]; split
      · rename_i hk; exact .nextClerk k h (by simpa using hk)
      · exact .same
    | sender k =>
      simp only [Halt.mainStep, h]; split
      · rename_i hk; exact .askSender k h hk
      · rename_i hk; exact .clear k h hk
    | senderWait k =>
      simp only [Halt.mainStep, h]; split
      · rename_i hk; exact .nextSender k h (by simpa using hk)
      · exact .same
    | cleared => simp only [Halt.mainStep, h]; exact .close h
    | shut => simp only [Halt.mainStep, h]; exact .exit h
    | gone => exact absurd h hg

theorem execute_conf (s : Halt) (i j : Nat) : (s.execute i j).sync = s.sync ∧ (s.execute i j).clerks = s.clerks ∧ (s.execute i j).senders = s.senders := by
  unfold Halt.execute
  repeat (first | exact ⟨rfl, rfl, rfl⟩ | (split; exact ⟨rfl, rfl, rfl⟩))
  simp only; split
  · exact ⟨rfl, rfl, rfl⟩
  · split <;> exact ⟨rfl, rfl, rfl⟩

set_option linter.unusedSimpArgs false in
theorem step_conf (s : Halt) (ev : HaltEv) : (s.step ev).sync = s.sync ∧ (s.step ev).clerks = s.clerks ∧ (s.step ev).senders = s.senders := by
  have hm : ∀ b d, (s.mainStep b d).sync = s.sync ∧ (s.mainStep b d).clerks = s.clerks ∧ (s.mainStep b d).senders = s.senders := by
    intro b d
    cases h : s.main with
    | clerk k => simp only [Halt.mainStep, h]; split <;> simp [Halt.setClerk, Halt.setSender, Halt.ack]
    | clerkWait k => simp only [Halt.mainStep, h]; split <;> simp [Halt.setClerk, Halt.setSender, Halt.ack]
    | sender k => simp only [Halt.mainStep, h]; split <;> simp [Halt.setClerk, Halt.setSender, Halt.ack]
    | senderWait k => simp only [Halt.mainStep, h]; split <;> simp [Halt.setClerk, Halt.setSender, Halt.ack]
    | _ => simp [Halt.mainStep, h]
  unfold Halt.step
  by_cases hg : s.main = .gone
  · rw [if_pos hg]; exact ⟨rfl, rfl, rfl⟩
  rw [if_neg hg]
  cases ev with
  | main d => exact hm _ _
  | giveUp d => exact hm _ _
  | clerk i =>
    simp only; split
    · cases h : (s.clerk i).loc with
      | working j => simp only [Halt.clerkStep, h]; exact execute_conf s i j
      | cleaning => simp only [Halt.clerkStep, h]; split; simp; split <;> simp [Halt.setClerk, Halt.setSender, Halt.ack]
      | idle => simp only [Halt.clerkStep, h]; split <;> simp [Halt.setClerk, Halt.setSender, Halt.ack]
      | waiting w j => simp only [Halt.clerkStep, h]; split <;> simp [Halt.setClerk, Halt.setSender, Halt.ack]
      | left => simp only [Halt.clerkStep, h]; split <;> simp [Halt.setClerk, Halt.setSender, Halt.ack]
      | _ => simp [Halt.clerkStep, h, Halt.setClerk]
    · exact ⟨rfl, rfl, rfl⟩
  | term => exact ⟨rfl, rfl, rfl⟩
  | _ => simp only; split <;> simp [Halt.setClerk, Halt.setSender, Halt.ack]

/-- What holds at all times if the main thread waits and nobody is killed. -/
structure Halt.Tidy (s : Halt) : Prop where
  sound : ∀ j, (s.sender j).Sound
  shut : ∀ i, (s.clerk i).shut = true → (s.clerk i).loc = .ended
  asked : ∀ j, (s.sender j).asked = true → s.main.clerksGone = true
  clerk : ∀ k, s.main = .clerk k ∨ s.main = .clerkWait k → ∀ i, i < k → (s.clerk i).loc = .ended
  clerks : s.main.clerksGone = true → ∀ i, i < s.clerks → (s.clerk i).loc = .ended
  sender : ∀ k, s.main = .sender k ∨ s.main = .senderWait k → ∀ j, j < k → (s.sender j).loc = .ended
  senders : s.main.sendersGone = true → ∀ j, j < s.senders → (s.sender j).loc = .ended

theorem ClerkMove.ended {s : Halt} {ev : HaltEv} {i : Nat} {c c' : Clerk} (m : ClerkMove s ev i c c') (h : c.loc = .ended) :
    c'.loc = .ended := by
  cases m with
  | same => exact h
  | go l h' _ => exact absurd h h'
  | work j h' _ => rw [h] at h'; cases h'
  | wait j h' _ => rw [h] at h'; cases h'
  | stop _ _ => rfl
  | ask _ => simp [Clerk.ask, h]
  | kill h' _ => rw [h] at h'; cases h'

theorem Halt.Tidy.step {s : Halt} (h : s.Tidy) (ev : HaltEv) (hp : ev.patient) : (s.step ev).Tidy := by
  obtain ⟨h1, h2, h3, h4, h5, h6, h7⟩ := h
  have hw : ev.waits := by cases ev <;> first | trivial | exact hp
  obtain ⟨_, ec, es⟩ := step_conf s ev
  have ce : ∀ i, (s.clerk i).loc = .ended → ((s.step ev).clerk i).loc = .ended := fun i => (clerk_move s ev i).ended
  have se : ∀ j, (s.sender j).loc = .ended → ((s.step ev).sender j).loc = .ended := fun j => (sender_move s ev j).keeps.2.2.1
  have mm := main_move s ev hw
  have cs : ∀ i, ((s.step ev).clerk i).shut = true → ((s.step ev).clerk i).loc = .ended := by
    intro i
    have hi := h2 i
    have mv := clerk_move s ev i
    generalize (s.step ev).clerk i = c' at mv ⊢
    generalize s.clerk i = c at mv hi
    cases mv with
    | same => exact hi
    | go l h' _ => intro hs; exact absurd (hi hs) h'
    | work j h' _ => intro hs; rw [hi hs] at h'; cases h'
    | wait j h' _ => intro hs; rw [hi hs] at h'; cases h'
    | stop _ _ => intro _; rfl
    | ask _ => intro hs; simp [Clerk.ask, hi hs]
    | kill h' hn => exact absurd hp hn
  have sa : ∀ j, ((s.step ev).sender j).asked = true → s.main.clerksGone = true := by
    intro j hj
    rcases (sender_move s ev j).keeps.2.2.2 hj with hj | hj
    · exact h3 j hj
    · rw [hj]; rfl
  generalize hm' : (s.step ev).main = m' at mm
  refine ⟨fun j => (sender_move s ev j).sound (h1 j), cs, ?_, ?_, ?_, ?_, ?_⟩ <;>
    simp only [hm', ec, es]
  · intro j hj
    have := sa j hj
    cases mm with
    | same => exact this
    | early _ h _ => rcases h with h | h <;> (cases hm : s.main <;> simp_all [MainAt.clerksGone, MainAt.stopping])
    | told h | askClerk k h _ | nextClerk k h _ | toSenders k h _ | askSender k h _ | nextSender k h _ | clear k h _ | close h
    | exit h => simp_all [MainAt.clerksGone]
  · intro k hk i hi
    cases mm with
    | same => exact ce i (h4 k hk i hi)
    | early _ h h' => rcases hk with hk | hk <;> (subst hk; simp [MainAt.stopping] at h')
    | told h => simp only [MainAt.clerk.injEq, reduceCtorEq, or_false] at hk; omega
    | askClerk k' h _ =>
      simp only [MainAt.clerkWait.injEq, reduceCtorEq, false_or] at hk; subst hk; exact ce i (h4 _ (.inl h) i hi)
    | nextClerk k' h h' =>
      simp only [MainAt.clerk.injEq, reduceCtorEq, or_false] at hk; subst hk
      by_cases e : i = k'
      · subst e; exact ce i (h2 i h')
      · exact ce i (h4 _ (.inr h) i (by omega))
    | _ => simp at hk
  · intro hg i hi
    cases mm with
    | same => exact ce i (h5 hg i hi)
    | early _ h h' => rcases h' with h' | h' | h' <;> cases m' <;> simp_all [MainAt.clerksGone, MainAt.stopping]
    | toSenders k h hk => exact ce i (h4 k (.inl h) i (by omega))
    | askSender k h _ | nextSender k h _ | clear k h _ => exact ce i (h5 (by rw [h]; rfl) i hi)
    | close h | exit h => exact ce i (h5 (by rw [h]; rfl) i hi)
    | _ => simp [MainAt.clerksGone] at hg
  · intro k hk j hj
    cases mm with
    | same => exact se j (h6 k hk j hj)
    | early _ h h' => rcases hk with hk | hk <;> (subst hk; simp [MainAt.stopping] at h')
    | toSenders k' h _ => simp only [MainAt.sender.injEq, reduceCtorEq, or_false] at hk; omega
    | askSender k' h _ =>
      simp only [MainAt.senderWait.injEq, reduceCtorEq, false_or] at hk; subst hk; exact se j (h6 _ (.inl h) j hj)
    | nextSender k' h h' =>
      simp only [MainAt.sender.injEq, reduceCtorEq, or_false] at hk; subst hk
      by_cases e : j = k'
      · subst e; exact se j ((h1 j).shut.1 h')
      · exact se j (h6 _ (.inr h) j (by omega))
    | _ => simp at hk
  · intro hg j hj
    cases mm with
    | same => exact se j (h7 hg j hj)
    | early _ h h' => rcases h' with h' | h' | h' <;> cases m' <;> simp_all [MainAt.sendersGone, MainAt.stopping]
    | clear k h hk => exact se j (h6 k (.inl h) j (by omega))
    | close h | exit h => exact se j (h7 (by rw [h]; rfl) j hj)
    | _ => simp [MainAt.sendersGone] at hg

theorem Halt.Tidy.start (sync : Bool) (n m : Nat) : (Halt.start sync n m).Tidy := by
  refine ⟨fun _ => Sender.Sound.init, ?_, ?_, ?_, ?_, ?_, ?_⟩ <;> simp [Halt.start, MainAt.clerksGone, MainAt.sendersGone]

theorem Halt.Tidy.run {s : Halt} (h : s.Tidy) (evs : List HaltEv) (hp : ∀ ev ∈ evs, ev.patient) : (s.run evs).Tidy :=
  Halt.run_ind (P := Halt.Tidy) (q := HaltEv.patient) (fun _ ev hq ht => ht.step ev hq) evs s hp h

/-- What a step of the node does to the writes. -/
inductive HaltEffect (s s' : Halt) : Prop
  | quiet (he : s'.executed = s.executed) (ha : s'.acked = s.acked) (hl : s'.lateAcks = s.lateAcks) (hb : s'.bad = s.bad)
      (hg : ∀ j, (s'.sender j).given = (s.sender j).given)
      (hw : ∀ i w j, (s.clerk i).loc = .waiting w j ↔ (s'.clerk i).loc = .waiting w j)
  | use (i j : Nat) (hi : i < s.clerks) (h : (s.clerk i).loc = .working j) (hc : s.main.storageClosed = true)
      (hs : s' = { s with bad := true })
  | wait (i j : Nat) (hi : i < s.clerks) (h : (s.clerk i).loc = .working j) (hs : s.sync = true)
      (hc : s.main.storageClosed = false) (hc' : s.main.sendersGone = false) (hn : (s.sender j).loc ≠ .ended)
      (he : s'.executed = s.executed + 1) (ha : s'.acked = s.acked) (hl : s'.lateAcks = s.lateAcks) (hb : s'.bad = s.bad)
      (hg : (s'.sender j).given = (s.sender j).given ++ [s.executed])
      (hg' : ∀ k, k ≠ j → (s'.sender k).given = (s.sender k).given)
      (hw : ∀ k, k ≠ i → s'.clerk k = s.clerk k) (hi' : (s'.clerk i).loc = .waiting s.executed j)
  | tell (i j : Nat) (hi : i < s.clerks) (h : (s.clerk i).loc = .working j) (hs : s.sync = false ∨ (s.sender j).loc = .ended)
      (hc : s.main.storageClosed = false) (hc' : s.main.sendersGone = false)
      (he : s'.executed = s.executed + 1) (ha : s'.acked = s.acked ++ [s.executed])
      (hl : s'.lateAcks = if s.main.isDown then s.lateAcks ++ [s.executed] else s.lateAcks) (hb : s'.bad = s.bad)
      (hg : (s'.sender j).given = (s.sender j).given ++ [s.executed])
      (hg' : ∀ k, k ≠ j → (s'.sender k).given = (s.sender k).given)
      (hw : ∀ k, k ≠ i → s'.clerk k = s.clerk k) (hi' : (s'.clerk i).loc = .after)
  | answer (i w j : Nat) (hi : i < s.clerks) (h : (s.clerk i).loc = .waiting w j)
      (hs : w ∈ (s.sender j).sent ∨ w ∈ (s.sender j).dropped) (hs' : s' = s.ack i w)

theorem given_step (c : Sender) (b : Bool) : (c.step b).given = c.given := by
  unfold Sender.step
  cases hl : c.loc with
  | loop => simp only; split <;> rfl
  | looking => cases hq : c.queue <;> rfl
  | asleep => cases hq : c.queue <;> rfl
  | holding w => simp only; split <;> rfl
  | sending w => rfl
  | ended => simp only; split <;> rfl

theorem setClerk_effect (s : Halt) (i : Nat) (c : Clerk) (m : MainAt) (h : ∀ w j, (s.clerk i).loc ≠ .waiting w j)
    (h' : ∀ w j, c.loc ≠ .waiting w j) : HaltEffect s { s.setClerk i c with main := m } := by
  refine .quiet rfl rfl rfl rfl (fun _ => rfl) ?_
  intro k w j
  show _ ↔ (if k = i then c else s.clerk k).loc = _
  by_cases e : k = i
  · subst e; rw [if_pos rfl]; exact ⟨fun hh => absurd hh (h w j), fun hh => absurd hh (h' w j)⟩
  · rw [if_neg e]

theorem setSender_effect (s : Halt) (i : Nat) (c : Sender) (m : MainAt) (h : c.given = (s.sender i).given) :
    HaltEffect s { s.setSender i c with main := m } := by
  refine .quiet rfl rfl rfl rfl ?_ (fun _ _ _ => Iff.rfl)
  intro j
  show (if j = i then c else s.sender j).given = _
  by_cases e : j = i
  · subst e; rw [if_pos rfl]; exact h
  · rw [if_neg e]

theorem same_effect (s : Halt) : HaltEffect s s := .quiet rfl rfl rfl rfl (fun _ => rfl) (fun _ _ _ => Iff.rfl)

theorem execute_effect (s : Halt) (i j : Nat) (hi : i < s.clerks) (h : (s.clerk i).loc = .working j) :
    HaltEffect s (s.execute i j) := by
  unfold Halt.execute
  by_cases h1 : s.main.storageClosed = true
  · rw [if_pos h1]; exact .use i j hi h h1 rfl
  rw [if_neg h1]
  by_cases h2 : s.main.sendersGone = true
  · rw [if_pos h2]; exact same_effect s
  rw [if_neg h2]
  have h1' : s.main.storageClosed = false := by simpa using h1
  have h2' : s.main.sendersGone = false := by simpa using h2
  by_cases h3 : (s.sender j).loc = .ended
  · simp only [if_pos h3]
    refine .tell i j hi h (.inr h3) h1' h2' rfl rfl rfl rfl ?_ ?_ ?_ ?_
    · show (if j = j then _ else s.sender j).given = _; rw [if_pos rfl]
    · intro k hk; show (if k = j then _ else s.sender k).given = _; rw [if_neg hk]
    · intro k hk; show (if k = i then _ else s.clerk k) = _; rw [if_neg hk]
    · show (if i = i then _ else s.clerk i).loc = _; rw [if_pos rfl]
  · simp only [if_neg h3]
    by_cases h4 : s.sync = true
    · rw [if_pos h4]
      refine .wait i j hi h h4 h1' h2' h3 rfl rfl rfl rfl ?_ ?_ ?_ ?_
      · show (if j = j then _ else s.sender j).given = _; rw [if_pos rfl]
      · intro k hk; show (if k = j then _ else s.sender k).given = _; rw [if_neg hk]
      · intro k hk; show (if k = i then _ else s.clerk k) = _; rw [if_neg hk]
      · show (if i = i then _ else s.clerk i).loc = _; rw [if_pos rfl]
    · rw [if_neg h4]
      refine .tell i j hi h (.inl (by simpa using h4)) h1' h2' rfl rfl rfl rfl ?_ ?_ ?_ ?_
      · show (if j = j then _ else s.sender j).given = _; rw [if_pos rfl]
      · intro k hk; show (if k = j then _ else s.sender k).given = _; rw [if_neg hk]
      · intro k hk; show (if k = i then _ else s.clerk k) = _; rw [if_neg hk]
      · show (if i = i then _ else s.clerk i).loc = _; rw [if_pos rfl]

theorem clerkStep_effect (s : Halt) (i : Nat) (hi : i < s.clerks) : HaltEffect s (s.clerkStep i) := by
  have nw : ∀ {l : ClerkAt}, (s.clerk i).loc = l → (∀ w j, l ≠ .waiting w j) → ∀ w j, (s.clerk i).loc ≠ .waiting w j := by
    intro l h1 h2 w j; rw [h1]; exact h2 w j
  cases h : (s.clerk i).loc with
  | idle =>
    simp only [Halt.clerkStep, h]; split
    · exact setClerk_effect s i _ s.main (nw h (by simp)) (by simp)
    · exact same_effect s
  | loop => simp only [Halt.clerkStep, h]; exact setClerk_effect s i _ s.main (nw h (by simp)) (by simp)
  | reading => simp only [Halt.clerkStep, h]; exact same_effect s
  | working j => simp only [Halt.clerkStep, h]; exact execute_effect s i j hi h
  | waiting w j =>
    simp only [Halt.clerkStep, h]; split
    · rename_i hs; exact .answer i w j hi h hs rfl
    · exact same_effect s
  | after =>
    simp only [Halt.clerkStep, h]
    exact setClerk_effect s i _ s.main (nw h (by simp)) (by intro w j; cases (s.clerk i).asked <;> simp)
  | left =>
    simp only [Halt.clerkStep, h]; split
    · exact setClerk_effect s i _ s.main (nw h (by simp)) (by simp)
    · exact setClerk_effect s i _ s.main (nw h (by simp)) (by simp)
  | cleaning =>
    simp only [Halt.clerkStep, h]; split
    · exact same_effect s
    split
    · exact setClerk_effect s i _ s.main (nw h (by simp)) (by simp)
    · exact setClerk_effect s i _ s.main (nw h (by simp)) (by simp)
  | ended => simp only [Halt.clerkStep, h]; exact same_effect s

theorem ask_waiting (c : Clerk) (w j : Nat) : c.loc = .waiting w j ↔ c.ask.loc = .waiting w j := by
  unfold Clerk.ask
  by_cases h : c.loc = .reading
  · simp [h]
  · simp [h]

theorem mainStep_effect (s : Halt) (b : Bool) (d : Nat) : HaltEffect s (s.mainStep b d) := by
  cases h : s.main with
  | clerk k =>
    simp only [Halt.mainStep, h]; split
    · refine .quiet rfl rfl rfl rfl (fun _ => rfl) ?_
      intro i w j
      show _ ↔ (if i = k then _ else s.clerk i).loc = _
      by_cases e : i = k
      · subst e; rw [if_pos rfl]; exact ask_waiting _ w j
      · rw [if_neg e]
    · exact .quiet rfl rfl rfl rfl (fun _ => rfl) (fun _ _ _ => Iff.rfl)
  | clerkWait k => simp only [Halt.mainStep, h]; split <;> exact .quiet rfl rfl rfl rfl (fun _ => rfl) (fun _ _ _ => Iff.rfl)
  | senderWait k => simp only [Halt.mainStep, h]; split <;> exact .quiet rfl rfl rfl rfl (fun _ => rfl) (fun _ _ _ => Iff.rfl)
  | sender k =>
    simp only [Halt.mainStep, h]; split
    · exact setSender_effect s k _ _ rfl
    · exact .quiet rfl rfl rfl rfl (fun _ => rfl) (fun _ _ _ => Iff.rfl)
  | _ => simp only [Halt.mainStep, h]; exact .quiet rfl rfl rfl rfl (fun _ => rfl) (fun _ _ _ => Iff.rfl)

theorem step_effect (s : Halt) (ev : HaltEv) : HaltEffect s (s.step ev) := by
  unfold Halt.step
  by_cases hg : s.main = .gone
  · rw [if_pos hg]; exact same_effect s
  rw [if_neg hg]
  have nw : ∀ {i : Nat} {l : ClerkAt}, (s.clerk i).loc = l → (∀ w j, l ≠ .waiting w j) → ∀ w j, (s.clerk i).loc ≠ .waiting w j := by
    intro i l h1 h2 w j; rw [h1]; exact h2 w j
  cases ev with
  | term => exact .quiet rfl rfl rfl rfl (fun _ => rfl) (fun _ _ _ => Iff.rfl)
  | connect i =>
    simp only; split
    · rename_i h; exact setClerk_effect s i _ _ (nw h.2.2 (by simp)) (by simp)
    · exact same_effect s
  | request i j =>
    simp only; split
    · rename_i h; exact setClerk_effect s i _ s.main (nw h.2.2 (by simp)) (by simp)
    · exact same_effect s
  | hangup i =>
    simp only; split
    · rename_i h; exact setClerk_effect s i _ s.main (nw h.2 (by simp)) (by simp)
    · exact same_effect s
  | kill i =>
    simp only; split
    · rename_i h; exact setClerk_effect s i _ s.main (nw h.2.1 (by simp)) (by simp)
    · exact same_effect s
  | clerk i => simp only; split; rename_i hi; exact clerkStep_effect s i hi; exact same_effect s
  | sender j => simp only; split; exact setSender_effect s j _ s.main (given_step _ _); exact same_effect s
  | spurious j => simp only; split; exact setSender_effect s j _ s.main rfl; exact same_effect s
  | main d => exact mainStep_effect s true d
  | giveUp d => exact mainStep_effect s false d

/-- Every write has its number, its sender and its answer, in every run. -/
structure Halt.Numbered (s : Halt) : Prop where
  sorted : ∀ j, (s.sender j).given.Pairwise (· < ·)
  lt : ∀ j w, w ∈ (s.sender j).given → w < s.executed
  apart : ∀ j k w, w ∈ (s.sender j).given → w ∈ (s.sender k).given → j = k
  cover : ∀ w, w < s.executed → ∃ j, j < s.senders ∧ w ∈ (s.sender j).given
  working : ∀ i j, (s.clerk i).loc = .working j → j < s.senders
  waiting : ∀ i w j, (s.clerk i).loc = .waiting w j → j < s.senders ∧ w ∈ (s.sender j).given
  acked : ∀ w, w ∈ s.acked → w < s.executed
  open_ : ∀ w, w < s.executed → w ∈ s.acked ∨ ∃ i j, i < s.clerks ∧ (s.clerk i).loc = .waiting w j

theorem working_step (s : Halt) (ev : HaltEv) (i j : Nat) (h : ((s.step ev).clerk i).loc = .working j) :
    (s.clerk i).loc = .working j ∨ j < s.senders := by
  have mv := clerk_move s ev i
  generalize (s.step ev).clerk i = c' at mv h
  generalize s.clerk i = c at mv
  cases mv with
  | same => exact .inl h
  | go l h' hl => rcases hl with e | e | e | e | e | e <;> (subst e; cases h)
  | work k h' hj => cases h; exact .inr hj
  | wait k h' _ => cases h
  | stop _ _ => cases h
  | ask _ =>
    unfold Clerk.ask at h
    by_cases e : c.loc = .reading
    · simp [e] at h
    · simp only [if_neg e] at h; exact .inl h
  | kill _ _ => cases h

theorem given_grows {s : Halt} (h : s.Numbered) {s' : Halt} {j : Nat} (hj : j < s.senders) (es : s'.senders = s.senders)
    (he : s'.executed = s.executed + 1) (hg : (s'.sender j).given = (s.sender j).given ++ [s.executed])
    (hg' : ∀ k, k ≠ j → (s'.sender k).given = (s.sender k).given) :
    (∀ j, (s'.sender j).given.Pairwise (· < ·)) ∧ (∀ j w, w ∈ (s'.sender j).given → w < s'.executed) ∧
    (∀ j k w, w ∈ (s'.sender j).given → w ∈ (s'.sender k).given → j = k) ∧
    (∀ w, w < s'.executed → ∃ j, j < s'.senders ∧ w ∈ (s'.sender j).given) := by
  have cases' : ∀ k w, w ∈ (s'.sender k).given → w ∈ (s.sender k).given ∨ (k = j ∧ w = s.executed) := by
    intro k w hw
    by_cases e : k = j
    · subst e; rw [hg] at hw; simp only [List.mem_append, List.mem_singleton] at hw
      rcases hw with hw | hw
      · exact .inl hw
      · exact .inr ⟨rfl, hw⟩
    · rw [hg' k e] at hw; exact .inl hw
  refine ⟨?_, ?_, ?_, ?_⟩
  · intro k
    by_cases e : k = j
    · subst e
      rw [hg, List.pairwise_append]
      exact ⟨h.sorted k, List.pairwise_singleton _ _, fun a ha b hb => by
        rw [List.mem_singleton] at hb; subst hb; exact h.lt k a ha⟩
    · rw [hg' k e]; exact h.sorted k
  · intro k w hw
    rw [he]
    rcases cases' k w hw with hw | ⟨_, hw⟩
    · have := h.lt k w hw; omega
    · omega
  · intro a b w ha hb
    rcases cases' a w ha with ha | ⟨ha, ha'⟩ <;> rcases cases' b w hb with hb | ⟨hb, hb'⟩
    · exact h.apart a b w ha hb
    · have := h.lt a w ha; omega
    · have := h.lt b w hb; omega
    · rw [ha, hb]
  · intro w hw
    rw [es]
    by_cases e : w = s.executed
    · exact ⟨j, hj, by rw [hg]; simp [e]⟩
    · obtain ⟨k, hk, hw'⟩ := h.cover w (by omega)
      refine ⟨k, hk, ?_⟩
      by_cases e' : k = j
      · subst e'; rw [hg]; simp [hw']
      · rw [hg' k e']; exact hw'

theorem given_sub {s s' : Halt} {j : Nat} (hg : (s'.sender j).given = (s.sender j).given ++ [s.executed])
    (hg' : ∀ k, k ≠ j → (s'.sender k).given = (s.sender k).given) (k w : Nat) (h : w ∈ (s.sender k).given) :
    w ∈ (s'.sender k).given := by
  by_cases e : k = j
  · subst e; rw [hg]; simp [h]
  · rw [hg' k e]; exact h

theorem Halt.Numbered.step {s : Halt} (h : s.Numbered) (ev : HaltEv) : (s.step ev).Numbered := by
  obtain ⟨_, ec, es⟩ := step_conf s ev
  have wk : ∀ i j, ((s.step ev).clerk i).loc = .working j → j < (s.step ev).senders := by
    intro i j hi
    rw [es]
    rcases working_step s ev i j hi with hi | hi
    · exact h.working i j hi
    · exact hi
  have eff := step_effect s ev
  generalize s.step ev = s' at *
  cases eff with
  | quiet he ha hl hb hg hw =>
    refine ⟨?_, ?_, ?_, ?_, wk, ?_, ?_, ?_⟩
    · intro j; rw [hg]; exact h.sorted j
    · intro j w; rw [hg, he]; exact h.lt j w
    · intro j k w; rw [hg, hg]; exact h.apart j k w
    · intro w; rw [he, es]; simp only [hg]; exact h.cover w
    · intro i w j hi; rw [hg, es]; exact h.waiting i w j ((hw i w j).2 hi)
    · intro w; rw [ha, he]; exact h.acked w
    · intro w hw'
      rw [he] at hw'
      rcases h.open_ w hw' with h' | ⟨i, j, hi, hj⟩
      · rw [ha]; exact .inl h'
      · exact .inr ⟨i, j, by rw [ec]; exact hi, (hw i w j).1 hj⟩
  | use i j hi hl hc hs =>
    subst hs
    exact ⟨h.sorted, h.lt, h.apart, h.cover, h.working, h.waiting, h.acked, h.open_⟩
  | wait i j hi hl hs hc hc' hn he ha hla hb hg hg' hw hi' =>
    obtain ⟨g1, g2, g3, g4⟩ := given_grows h (h.working i j hl) es he hg hg'
    refine ⟨g1, g2, g3, g4, wk, ?_, ?_, ?_⟩
    · intro k w l hk
      rw [es]
      by_cases e : k = i
      · subst e; rw [hi'] at hk; cases hk; exact ⟨h.working k j hl, by rw [hg]; simp⟩
      · rw [hw k e] at hk
        obtain ⟨a, b⟩ := h.waiting k w l hk
        exact ⟨a, given_sub hg hg' l w b⟩
    · intro w hw'; rw [ha] at hw'; have := h.acked w hw'; omega
    · intro w hw'
      by_cases e : w = s.executed
      · exact .inr ⟨i, j, by rw [ec]; exact hi, by rw [e]; exact hi'⟩
      · rcases h.open_ w (by omega) with h' | ⟨k, l, hk, hk'⟩
        · rw [ha]; exact .inl h'
        · refine .inr ⟨k, l, by rw [ec]; exact hk, ?_⟩
          have : k ≠ i := by intro e'; subst e'; rw [hl] at hk'; cases hk'
          rw [hw k this]; exact hk'
  | tell i j hi hl hs hc hc' he ha hla hb hg hg' hw hi' =>
    obtain ⟨g1, g2, g3, g4⟩ := given_grows h (h.working i j hl) es he hg hg'
    refine ⟨g1, g2, g3, g4, wk, ?_, ?_, ?_⟩
    · intro k w l hk
      rw [es]
      by_cases e : k = i
      · subst e; rw [hi'] at hk; cases hk
      · rw [hw k e] at hk
        obtain ⟨a, b⟩ := h.waiting k w l hk
        exact ⟨a, given_sub hg hg' l w b⟩
    · intro w hw'; rw [ha] at hw'; simp only [List.mem_append, List.mem_singleton] at hw'
      rcases hw' with hw' | hw'
      · have := h.acked w hw'; omega
      · omega
    · intro w hw'
      rw [ha]
      by_cases e : w = s.executed
      · exact .inl (by simp [e])
      · rcases h.open_ w (by omega) with h' | ⟨k, l, hk, hk'⟩
        · exact .inl (by simp [h'])
        · refine .inr ⟨k, l, by rw [ec]; exact hk, ?_⟩
          have : k ≠ i := by intro e'; subst e'; rw [hl] at hk'; cases hk'
          rw [hw k this]; exact hk'
  | answer i w j hi hl hs hs' =>
    subst hs'
    have hwl : w < s.executed := h.lt j w (h.waiting i w j hl).2
    refine ⟨h.sorted, h.lt, h.apart, h.cover, wk, ?_, ?_, ?_⟩
    · intro k w' l hk
      rw [ack_clerk] at hk
      by_cases e : k = i
      · rw [if_pos e] at hk; cases hk
      · rw [if_neg e] at hk; exact h.waiting k w' l hk
    · intro w' hw'
      have : w' ∈ s.acked ++ [w] := hw'
      simp only [List.mem_append, List.mem_singleton] at this
      rcases this with h' | h'
      · exact h.acked w' h'
      · subst h'; exact hwl
    · intro w' hw'
      show w' ∈ s.acked ++ [w] ∨ _
      rcases h.open_ w' hw' with h' | ⟨k, l, hk, hk'⟩
      · exact .inl (by simp [h'])
      · by_cases e : k = i
        · subst e; rw [hl] at hk'; cases hk'; exact .inl (by simp)
        · exact .inr ⟨k, l, hk, by rw [ack_clerk, if_neg e]; exact hk'⟩

theorem Halt.Numbered.start (sync : Bool) (n m : Nat) : (Halt.start sync n m).Numbered := by
  constructor <;> simp [Halt.start]

theorem numbered (sync : Bool) (n m : Nat) (evs : List HaltEv) : ((Halt.start sync n m).run evs).Numbered :=
  Halt.run_ind (P := Halt.Numbered) (q := fun _ => True) (fun _ ev _ h => h.step ev) evs _ (fun _ _ => trivial)
    (Halt.Numbered.start sync n m)

theorem run_conf (s : Halt) (evs : List HaltEv) :
    (s.run evs).sync = s.sync ∧ (s.run evs).clerks = s.clerks ∧ (s.run evs).senders = s.senders :=
  Halt.run_ind (P := fun t => t.sync = s.sync ∧ t.clerks = s.clerks ∧ t.senders = s.senders) (q := fun _ => True)
    (fun t ev _ h => by obtain ⟨a, b, c⟩ := step_conf t ev; rw [a, b, c]; exact h) evs s (fun _ _ => trivial) ⟨rfl, rfl, rfl⟩

/-- What holds of the answers if the copies are waited for. -/
structure Halt.Kept (s : Halt) : Prop where
  tidy : s.Tidy
  num : s.Numbered
  sync : s.sync = true
  sent : ∀ w, w ∈ s.acked → ∃ j, j < s.senders ∧ w ∈ (s.sender j).sent

theorem Halt.Kept.step {s : Halt} (h : s.Kept) (ev : HaltEv) (hp : ev.patient) : (s.step ev).Kept := by
  obtain ⟨ey, ec, es⟩ := step_conf s ev
  refine ⟨h.tidy.step ev hp, h.num.step ev, by rw [ey]; exact h.sync, ?_⟩
  have keep : ∀ j w, w ∈ (s.sender j).sent → w ∈ ((s.step ev).sender j).sent := by
    intro j w hw
    obtain ⟨t, ht⟩ := (sender_move s ev j).keeps.1
    rw [ht]; simp [hw]
  have alive : ∀ i, i < s.clerks → (s.clerk i).loc ≠ .ended → ∀ j, (s.sender j).loc ≠ .ended := by
    intro i hi hne j he
    exact hne (h.tidy.clerks (h.tidy.asked j ((h.tidy.sound j).asked he)) i hi)
  have old : ∀ w, w ∈ s.acked → ∃ j, j < (s.step ev).senders ∧ w ∈ ((s.step ev).sender j).sent := by
    intro w hw
    obtain ⟨j, hj, hw⟩ := h.sent w hw
    exact ⟨j, by rw [es]; exact hj, keep j w hw⟩
  have eff := step_effect s ev
  intro w hw
  cases eff with
  | quiet _ ha => rw [ha] at hw; exact old w hw
  | use i j _ _ _ hs => rw [hs] at hw; exact old w hw
  | wait i j _ _ _ _ _ _ _ ha => rw [ha] at hw; exact old w hw
  | tell i j hi hl hs =>
    rcases hs with hs | hs
    · rw [h.sync] at hs; cases hs
    · exact absurd hs (alive i hi (by rw [hl]; simp) j)
  | answer i w' j hi hl hs hs' =>
    have e : (s.step ev).acked = s.acked ++ [w'] := by rw [hs']; rfl
    rw [e] at hw
    simp only [List.mem_append, List.mem_singleton] at hw
    rcases hw with hw | hw
    · exact old w hw
    · subst hw
      refine ⟨j, by rw [es]; exact (h.num.waiting i w j hl).1, keep j w ?_⟩
      rcases hs with hs | hs
      · exact hs
      · rw [((h.tidy.sound j).clean (alive i hi (by rw [hl]; simp) j)).2.1] at hs; cases hs

theorem Halt.Kept.run {s : Halt} (h : s.Kept) (evs : List HaltEv) (hp : ∀ ev ∈ evs, ev.patient) : (s.run evs).Kept :=
  Halt.run_ind (P := Halt.Kept) (q := HaltEv.patient) (fun _ ev hq ht => ht.step ev hq) evs s hp h

theorem Halt.Kept.start (n m : Nat) : (Halt.start true n m).Kept :=
  ⟨.start _ _ _, .start _ _ _, rfl, by simp [Halt.start]⟩

/-- What the sender is handing over. -/
def Sender.now (c : Sender) : List Nat :=
  match c.loc with
  | .sending w => [w]
  | _ => []

theorem SenderMove.last {s : Halt} {ev : HaltEv} {j : Nat} {c c' : Sender} (m : SenderMove s ev j c c') (h : c.asked = true) :
    c'.asked = true ∧ c'.sent ++ c'.now = c.sent ++ c.now := by
  refine ⟨m.keeps.2.1 h, ?_⟩
  cases m with
  | same => rfl
  | ask hm =>
    unfold Sender.ask
    by_cases e : c.loc = .asleep
    · simp [Sender.now, e]
    · simp [Sender.now, e]
  | spurious hl _ => simp [Sender.now, hl]
  | push hl => rfl
  | refuse hl => rfl
  | step =>
    unfold Sender.step
    cases hl : c.loc with
    | loop => simp [Sender.now, hl, h]
    | looking => cases hq : c.queue <;> simp [Sender.now, hl]
    | asleep => cases hq : c.queue <;> simp [Sender.now, hl]
    | holding w => simp [Sender.now, hl, h]
    | sending w => simp [Sender.now, hl]
    | ended => simp only; split <;> simp [Sender.now, hl]

theorem last_run (s : Halt) (evs : List HaltEv) (j : Nat) (h : (s.sender j).asked = true) :
    ((s.run evs).sender j).sent ++ ((s.run evs).sender j).now = (s.sender j).sent ++ (s.sender j).now :=
  (Halt.run_ind (P := fun t => (t.sender j).asked = true ∧
      (t.sender j).sent ++ (t.sender j).now = (s.sender j).sent ++ (s.sender j).now) (q := fun _ => True)
    (fun t ev _ ht => by
      obtain ⟨a, b⟩ := (sender_move t ev j).last ht.1
      exact ⟨a, b.trans ht.2⟩) evs s (fun _ _ => trivial) ⟨h, rfl⟩).2

theorem now_hand (c : Sender) (w : Nat) (h : w ∈ c.now) : w ∈ c.hand := by
  unfold Sender.now at h
  unfold Sender.hand
  cases hl : c.loc <;> simp_all

theorem sent_run (s : Halt) (evs : List HaltEv) (j w : Nat) (h : w ∈ (s.sender j).sent) : w ∈ ((s.run evs).sender j).sent :=
  Halt.run_ind (P := fun t => w ∈ (t.sender j).sent) (q := fun _ => True)
    (fun t ev _ ht => by
      obtain ⟨x, hx⟩ := (sender_move t ev j).keeps.1
      rw [hx]; simp [ht]) evs s (fun _ _ => trivial) h

theorem step_other_main (s : Halt) (ev : HaltEv) (hs : s.main.stopping = true) (h : ∀ d, ev ≠ .main d) (h' : ∀ d, ev ≠ .giveUp d) :
    (s.step ev).main = s.main ∧ (s.step ev).spent = s.spent := by
  have ne : s.main ≠ .accept := by intro e; rw [e] at hs; cases hs
  unfold Halt.step
  by_cases hg : s.main = .gone
  · rw [if_pos hg]; exact ⟨rfl, rfl⟩
  rw [if_neg hg]
  cases ev with
  | term => exact ⟨if_neg ne, rfl⟩
  | connect i => simp only; rw [if_neg (fun hh => ne hh.1)]; exact ⟨rfl, rfl⟩
  | request i j => simp only; split <;> exact ⟨rfl, rfl⟩
  | hangup i => simp only; split <;> exact ⟨rfl, rfl⟩
  | kill i => simp only; split <;> exact ⟨rfl, rfl⟩
  | clerk i =>
    simp only; split
    · refine ⟨clerkStep_main s i, ?_⟩
      cases h : (s.clerk i).loc with
      | working j =>
        simp only [Halt.clerkStep, h, Halt.execute]
        split
        · rfl
        split
        · rfl
        split
        · rfl
        split <;> rfl
      | cleaning => simp only [Halt.clerkStep, h]; split; rfl; split <;> rfl
      | idle => simp only [Halt.clerkStep, h]; split <;> rfl
      | waiting w j => simp only [Halt.clerkStep, h]; split <;> rfl
      | left => simp only [Halt.clerkStep, h]; split <;> rfl
      | _ => simp [Halt.clerkStep, h, Halt.setClerk]
    · exact ⟨rfl, rfl⟩
  | sender j => simp only; split <;> exact ⟨rfl, rfl⟩
  | spurious j => simp only; split <;> exact ⟨rfl, rfl⟩
  | main d => exact absurd rfl (h d)
  | giveUp d => exact absurd rfl (h' d)

theorem ahead_congr {s s' : Halt} (h : s'.main = s.main) (h1 : s'.clerks = s.clerks) (h2 : s'.senders = s.senders) :
    s'.ahead = s.ahead := by
  unfold Halt.ahead; rw [h, h1, h2]

theorem mainStep_ahead (s : Halt) (b : Bool) (d : Nat) (hs : s.main.stopping = true) :
    (s.mainStep b d).main.stopping = true ∧ (s.mainStep b d).ahead ≤ s.ahead ∧
      (b = false → s.main ≠ .gone → (s.mainStep b d).ahead < s.ahead) := by
  cases h : s.main with
  | top | before | accept => rw [h] at hs; cases hs
  | closed | told | cleared | shut | gone => simp [Halt.mainStep, Halt.ahead, h, MainAt.stopping]
  | clerk k =>
    simp only [Halt.mainStep, h]
    by_cases hk : k < s.clerks
    · simp only [if_pos hk, Halt.ahead, h, Halt.setClerk]; exact ⟨rfl, by omega, fun _ _ => by omega⟩
    · simp only [if_neg hk, Halt.ahead, h]; exact ⟨rfl, by omega, fun _ _ => by omega⟩
  | sender k =>
    simp only [Halt.mainStep, h]
    by_cases hk : k < s.senders
    · simp only [if_pos hk, Halt.ahead, h, Halt.setSender]; exact ⟨rfl, by omega, fun _ _ => by omega⟩
    · simp only [if_neg hk, Halt.ahead, h]; exact ⟨rfl, by omega, fun _ _ => by omega⟩
  | clerkWait k =>
    simp only [Halt.mainStep, h]
    by_cases hk : (s.clerk k).shut = true ∨ b = false
    · simp only [if_pos hk, Halt.ahead, h]; exact ⟨rfl, by omega, fun _ _ => by omega⟩
    · simp only [if_neg hk, Halt.ahead, h]; exact ⟨rfl, by omega, fun e => absurd (Or.inr e) hk⟩
  | senderWait k =>
    simp only [Halt.mainStep, h]
    by_cases hk : (s.sender k).shut = true ∨ b = false
    · simp only [if_pos hk, Halt.ahead, h]; exact ⟨rfl, by omega, fun _ _ => by omega⟩
    · simp only [if_neg hk, Halt.ahead, h]; exact ⟨rfl, by omega, fun e => absurd (Or.inr e) hk⟩

theorem step_ahead (s : Halt) (ev : HaltEv) (hs : s.main.stopping = true) :
    (s.step ev).main.stopping = true ∧ (s.step ev).ahead ≤ s.ahead ∧
      ((∃ d, ev = .giveUp d) → s.main ≠ .gone → (s.step ev).ahead < s.ahead) := by
  by_cases hg : s.main = .gone
  · have : s.step ev = s := by unfold Halt.step; rw [if_pos hg]
    rw [this]; exact ⟨hs, Nat.le_refl _, fun _ h => absurd hg h⟩
  by_cases h1 : ∃ d, ev = .main d
  · obtain ⟨d, rfl⟩ := h1
    have : s.step (.main d) = s.mainStep true d := by unfold Halt.step; rw [if_neg hg]
    rw [this]
    obtain ⟨a, b, _⟩ := mainStep_ahead s true d hs
    exact ⟨a, b, fun ⟨_, h⟩ => by cases h⟩
  by_cases h2 : ∃ d, ev = .giveUp d
  · obtain ⟨d, rfl⟩ := h2
    have : s.step (.giveUp d) = s.mainStep false d := by unfold Halt.step; rw [if_neg hg]
    rw [this]
    obtain ⟨a, b, c⟩ := mainStep_ahead s false d hs
    exact ⟨a, b, fun _ => c rfl⟩
  obtain ⟨e1, _⟩ := step_other_main s ev hs (fun d e => h1 ⟨d, e⟩) (fun d e => h2 ⟨d, e⟩)
  obtain ⟨_, ec, es⟩ := step_conf s ev
  rw [ahead_congr e1 ec es, e1]
  exact ⟨hs, Nat.le_refl _, fun h => absurd h h2⟩

def HaltEv.isGiveUp : HaltEv → Bool
  | .giveUp _ => true
  | _ => false

theorem run_ahead : ∀ (evs : List HaltEv) (s : Halt), s.main.stopping = true →
    (s.run evs).main.stopping = true ∧ (s.run evs).ahead ≤ s.ahead - evs.countP HaltEv.isGiveUp
  | [], s, hs => ⟨hs, by simp [Halt.run]⟩
  | ev :: evs, s, hs => by
    obtain ⟨a, b, c⟩ := step_ahead s ev hs
    obtain ⟨d, e⟩ := run_ahead evs (s.step ev) a
    refine ⟨d, ?_⟩
    show ((s.step ev).run evs).ahead ≤ _
    rw [List.countP_cons]
    by_cases hg : ev.isGiveUp = true
    · have hex : ∃ d, ev = .giveUp d := by cases ev <;> first | exact ⟨_, rfl⟩ | cases hg
      rw [if_pos hg]
      by_cases hm : s.main = .gone
      · have : s.ahead = 0 := by unfold Halt.ahead; rw [hm]
        omega
      · have := c hex hm; omega
    · rw [if_neg hg]; omega

/-- The waits that are over. -/
def Halt.waited (s : Halt) : Nat :=
  match s.main with
  | .top | .before | .accept | .closed | .told => 0
  | .clerk k | .clerkWait k => k
  | .sender k | .senderWait k => s.clerks + k
  | .cleared | .shut | .gone => s.clerks + s.senders

structure Halt.Timed (s : Halt) : Prop where
  clerk : ∀ k, s.main = .clerk k → k ≤ s.clerks
  clerkWait : ∀ k, s.main = .clerkWait k → k < s.clerks
  sender : ∀ k, s.main = .sender k → k ≤ s.senders
  senderWait : ∀ k, s.main = .senderWait k → k < s.senders
  spent : s.spent ≤ shutdownTimeout * s.waited

theorem Halt.Timed.mainStep {s : Halt} (h : s.Timed) (b : Bool) (d : Nat) : (s.mainStep b d).Timed := by
  obtain ⟨h1, h2, h3, h4, h5⟩ := h
  cases hm : s.main with
  | top =>
    have : s.spent = 0 := by simpa [Halt.waited, hm] using h5
    cases hw : s.wanted <;> constructor <;> simp [Halt.mainStep, hm, hw, Halt.waited, this]
  | before | accept | closed | told =>
    have : s.spent = 0 := by simpa [Halt.waited, hm] using h5
    constructor <;> simp [Halt.mainStep, hm, Halt.waited, this]
  | cleared | shut | gone =>
    have : s.spent ≤ shutdownTimeout * (s.clerks + s.senders) := by simpa [Halt.waited, hm] using h5
    constructor <;> simp [Halt.mainStep, hm, Halt.waited, this]
  | clerk k =>
    have hk := h1 k hm
    have h5 : s.spent ≤ shutdownTimeout * k := by simpa [Halt.waited, hm] using h5
    by_cases hlt : k < s.clerks
    · constructor <;> simp [Halt.mainStep, hm, hlt, Halt.waited, Halt.setClerk, h5]
    · have e : k = s.clerks := by omega
      subst e
      constructor <;> simp [Halt.mainStep, hm, Halt.waited, h5]
  | sender k =>
    have hk := h3 k hm
    have h5 : s.spent ≤ shutdownTimeout * (s.clerks + k) := by simpa [Halt.waited, hm] using h5
    by_cases hlt : k < s.senders
    · constructor <;> simp [Halt.mainStep, hm, hlt, Halt.waited, Halt.setSender, h5]
    · have e : k = s.senders := by omega
      subst e
      constructor <;> simp [Halt.mainStep, hm, Halt.waited, h5]
  | clerkWait k =>
    have hk := h2 k hm
    have h5' : s.spent ≤ shutdownTimeout * k := by simpa [Halt.waited, hm] using h5
    have : s.spent + min d shutdownTimeout ≤ shutdownTimeout * (k + 1) := by
      rw [Nat.mul_add, Nat.mul_one]; omega
    by_cases hs : (s.clerk k).shut = true ∨ b = false
    · constructor <;> simp [Halt.mainStep, hm, if_pos hs, Halt.waited, this]
      omega
    · have e : s.mainStep b d = s := by simp [Halt.mainStep, hm, if_neg hs]
      rw [e]; exact ⟨h1, h2, h3, h4, h5⟩
  | senderWait k =>
    have hk := h4 k hm
    have h5' : s.spent ≤ shutdownTimeout * (s.clerks + k) := by simpa [Halt.waited, hm] using h5
    have : s.spent + min d shutdownTimeout ≤ shutdownTimeout * (s.clerks + (k + 1)) := by
      rw [show s.clerks + (k + 1) = s.clerks + k + 1 by omega, Nat.mul_add _ _ 1, Nat.mul_one]; omega
    by_cases hs : (s.sender k).shut = true ∨ b = false
    · constructor <;> simp [Halt.mainStep, hm, if_pos hs, Halt.waited, this]
      omega
    · have e : s.mainStep b d = s := by simp [Halt.mainStep, hm, if_neg hs]
      rw [e]; exact ⟨h1, h2, h3, h4, h5⟩

theorem Halt.Timed.congr {s s' : Halt} (h : s.Timed) (hm : s'.main = s.main) (hs : s'.spent = s.spent)
    (hc : s'.clerks = s.clerks) (hn : s'.senders = s.senders) : s'.Timed := by
  obtain ⟨h1, h2, h3, h4, h5⟩ := h
  refine ⟨?_, ?_, ?_, ?_, ?_⟩
  · rw [hm, hc]; exact h1
  · rw [hm, hc]; exact h2
  · rw [hm, hn]; exact h3
  · rw [hm, hn]; exact h4
  · unfold Halt.waited at h5 ⊢; rw [hm, hs, hc, hn]; exact h5

theorem step_early (s : Halt) (ev : HaltEv) (hs : s.main.stopping = false) (h : ∀ d, ev ≠ .main d) (h' : ∀ d, ev ≠ .giveUp d) :
    (s.step ev).main.stopping = false ∧ (s.step ev).spent = s.spent := by
  unfold Halt.step
  by_cases hg : s.main = .gone
  · rw [if_pos hg]; exact ⟨hs, rfl⟩
  rw [if_neg hg]
  cases ev with
  | term =>
    refine ⟨?_, rfl⟩
    show (if s.main = .accept then .top else s.main).stopping = false
    split
    · rfl
    · exact hs
  | connect i => simp only; split; exact ⟨rfl, rfl⟩; exact ⟨hs, rfl⟩
  | request i j => simp only; split <;> exact ⟨hs, rfl⟩
  | hangup i => simp only; split <;> exact ⟨hs, rfl⟩
  | kill i => simp only; split <;> exact ⟨hs, rfl⟩
  | clerk i =>
    simp only; split
    · refine ⟨by rw [clerkStep_main]; exact hs, ?_⟩
      cases h : (s.clerk i).loc with
      | working j =>
        simp only [Halt.clerkStep, h, Halt.execute]
        split
        · rfl
        split
        · rfl
        split
        · rfl
        split <;> rfl
      | cleaning => simp only [Halt.clerkStep, h]; split; rfl; split <;> rfl
      | idle => simp only [Halt.clerkStep, h]; split <;> rfl
      | waiting w j => simp only [Halt.clerkStep, h]; split <;> rfl
      | left => simp only [Halt.clerkStep, h]; split <;> rfl
      | _ => simp [Halt.clerkStep, h, Halt.setClerk]
    · exact ⟨hs, rfl⟩
  | sender j => simp only; split <;> exact ⟨hs, rfl⟩
  | spurious j => simp only; split <;> exact ⟨hs, rfl⟩
  | main d => exact absurd rfl (h d)
  | giveUp d => exact absurd rfl (h' d)

theorem Halt.Timed.step {s : Halt} (h : s.Timed) (ev : HaltEv) : (s.step ev).Timed := by
  by_cases hg : s.main = .gone
  · have : s.step ev = s := by unfold Halt.step; rw [if_pos hg]
    rw [this]; exact h
  by_cases h1 : ∃ d, ev = .main d
  · obtain ⟨d, rfl⟩ := h1
    have : s.step (.main d) = s.mainStep true d := by unfold Halt.step; rw [if_neg hg]
    rw [this]; exact h.mainStep true d
  by_cases h2 : ∃ d, ev = .giveUp d
  · obtain ⟨d, rfl⟩ := h2
    have : s.step (.giveUp d) = s.mainStep false d := by unfold Halt.step; rw [if_neg hg]
    rw [this]; exact h.mainStep false d
  obtain ⟨_, ec, es⟩ := step_conf s ev
  cases hs : s.main.stopping with
  | true =>
    obtain ⟨e1, e2⟩ := step_other_main s ev hs (fun d e => h1 ⟨d, e⟩) (fun d e => h2 ⟨d, e⟩)
    exact h.congr e1 e2 ec es
  | false =>
    obtain ⟨e1, e2⟩ := step_early s ev hs (fun d e => h1 ⟨d, e⟩) (fun d e => h2 ⟨d, e⟩)
    have z : s.spent = 0 := by
      have := h.spent
      unfold Halt.waited at this
      cases hm : s.main <;> simp_all [MainAt.stopping]
    refine ⟨?_, ?_, ?_, ?_, by rw [e2, z]; omega⟩ <;>
      (intro k hk; rw [hk] at e1; cases e1)

theorem timed (sync : Bool) (n m : Nat) (evs : List HaltEv) : ((Halt.start sync n m).run evs).Timed :=
  Halt.run_ind (P := Halt.Timed) (q := fun _ => True) (fun _ ev _ h => h.step ev) evs _ (fun _ _ => trivial)
    (by constructor <;> simp [Halt.start])

theorem clerkStep_other (s : Halt) (i k : Nat) (h : k ≠ i) : (s.clerkStep i).clerk k = s.clerk k := by
  cases hl : (s.clerk i).loc with
  | working j =>
    simp only [Halt.clerkStep, hl, Halt.execute]
    split
    · rfl
    split
    · rfl
    split
    · exact if_neg h
    split <;> exact if_neg h
  | cleaning => simp only [Halt.clerkStep, hl]; split; rfl; split <;> exact if_neg h
  | idle => simp only [Halt.clerkStep, hl]; split; exact if_neg h; rfl
  | waiting w j => simp only [Halt.clerkStep, hl]; split; exact if_neg h; rfl
  | left => simp only [Halt.clerkStep, hl]; split <;> exact if_neg h
  | loop => simp only [Halt.clerkStep, hl]; exact if_neg h
  | after => simp only [Halt.clerkStep, hl]; exact if_neg h
  | reading => simp only [Halt.clerkStep, hl]
  | ended => simp only [Halt.clerkStep, hl]

end Flare
