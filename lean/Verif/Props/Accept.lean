import Verif.Model.Accept

/-! C82: connections are taken in order, served or closed, and never more than the limit at once. -/
namespace Flare

/-- The connections that clients opened to one listening socket, in order. -/
def arrivalsAt (l : Nat) : List FrontAct → List Nat
  | [] => []
  | .arrive l' c :: as => if l' = l then c :: arrivalsAt l as else arrivalsAt l as
  | _ :: as => arrivalsAt l as

/-- What was taken from one listening socket. -/
def takenFrom (l : Nat) (t : List (Nat × Nat)) : List Nat := (t.filter (fun p => p.1 = l)).map Prod.snd

/-- All places where a connection that was taken can be. -/
def Front.places (s : Front) : List Nat :=
  s.todo ++ s.chosen.toList ++ s.serving ++ s.ended ++ s.closed ++ s.stuck

theorem acceptAll_places (u : Nat → Bool) :
    ∀ (evs : List ReadyEvent) (q : Nat → List Nat) (a : Accepted), acceptAll u q evs = some a →
      a.taken.map Prod.snd = a.list ++ a.closed ∧ ∀ l, takenFrom l a.taken ++ a.queues l = q l := by
  intro evs
  induction evs with
  | nil => intro q a h; cases h; exact ⟨rfl, fun l => rfl⟩
  | cons e es ih =>
    intro q a h
    unfold acceptAll at h
    split at h
    · split at h
      · exact absurd h (by simp)
      · rename_i c rest hq
        have one : ∀ l, takenFrom l [(e.listener, c)] ++ (if l = e.listener then rest else q l) = q l := by
          intro l
          by_cases g : l = e.listener
          · subst g; simp [takenFrom, hq]
          · simp [takenFrom, g, Ne.symm g]
        dsimp only at h
        split at h
        · cases h; exact ⟨rfl, one⟩
        · split at h
          · cases h; exact ⟨rfl, one⟩
          · split at h
            · cases h; exact ⟨rfl, one⟩
            · cases hr : acceptAll u (fun l => if l = e.listener then rest else q l) es with
              | none => rw [hr] at h; exact absurd h (by simp)
              | some b =>
                rw [hr] at h
                simp only [Option.map_some, Option.some.injEq] at h
                subst h
                obtain ⟨h1, h2⟩ := ih _ b hr
                refine ⟨by simp [h1], fun l => ?_⟩
                have h3 := h2 l
                by_cases g : l = e.listener
                · subst g
                  simp only [if_true] at h3
                  simp only [takenFrom] at h3 ⊢
                  simp [hq, h3]
                · simp only [if_neg g] at h3
                  simp only [takenFrom] at h3 ⊢
                  simp [Ne.symm g, h3]
    · cases h; exact ⟨rfl, fun l => rfl⟩

theorem takenFrom_append (l : Nat) (a b : List (Nat × Nat)) :
    takenFrom l (a ++ b) = takenFrom l a ++ takenFrom l b := by
  simp [takenFrom]

/-- What one step keeps: the order at each socket, and where the connections are. -/
theorem front_step_keeps (index : Bool) (u : Nat → Bool) (s s' : Front) (a : FrontAct)
    (h : s.step index u a = some s') :
    (∀ l, takenFrom l s'.taken ++ s'.queues l = takenFrom l s.taken ++ s.queues l ++ arrivalsAt l [a]) ∧
      (s.taken.map Prod.snd).Perm s.places → (∀ l, takenFrom l s'.taken ++ s'.queues l =
        takenFrom l s.taken ++ s.queues l ++ arrivalsAt l [a]) ∧ (s'.taken.map Prod.snd).Perm s'.places := by
  intro ⟨h1, hp⟩
  refine ⟨h1, ?_⟩
  clear h1
  rw [List.perm_iff_count] at hp ⊢
  intro x
  have hx := hp x
  simp only [Front.places, List.count_append] at hx ⊢
  cases a with
  | arrive l c => simp only [Front.step, Option.some.injEq] at h; subst h; exact hx
  | reload m p =>
    simp only [Front.step] at h
    split at h
    · simp only [Option.some.injEq] at h; subst h; simpa using hx
    · exact absurd h (by simp)
  | wait evs =>
    simp only [Front.step] at h
    split at h
    · rename_i ht hc
      cases hr : acceptAll u s.queues evs with
      | none => rw [hr] at h; exact absurd h (by simp)
      | some b =>
        rw [hr] at h
        simp only [Option.map_some, Option.some.injEq] at h
        subst h
        obtain ⟨h1, -⟩ := acceptAll_places u evs _ b hr
        have h2 := congrArg (List.count x) h1
        simp only [List.count_append] at h2
        simp only [ht, hc, List.map_append, List.count_append, List.count_nil] at hx ⊢
        omega
    · exact absurd h (by simp)
  | check =>
    simp only [Front.step] at h
    split at h
    · rename_i c cs ht hc
      split at h
      all_goals
        simp only [Option.some.injEq] at h; subst h
        simp only [ht, hc, Option.toList, List.count_append, List.count_cons, List.count_nil] at hx ⊢
        omega
    · exact absurd h (by simp)
  | get created =>
    simp only [Front.step] at h
    split at h
    · exact absurd h (by simp)
    · rename_i c hc
      simp only [hc, Option.toList, List.count_append, List.count_cons, List.count_nil] at hx ⊢
      split at h
      · simp only [Option.some.injEq] at h; subst h
        simp only [Option.toList, List.count_append, List.count_cons, List.count_nil]; omega
      · split at h
        · simp only [Option.some.injEq] at h; subst h
          simp only [Option.toList, List.count_append, List.count_cons, List.count_nil]; omega
        · split at h
          all_goals
            simp only [Option.some.injEq] at h; subst h
            simp only [Option.toList, List.count_append, List.count_cons, List.count_nil]; omega
  | finish c =>
    simp only [Front.step] at h
    split at h
    · rename_i hm
      simp only [Option.some.injEq] at h; subst h
      have hpos : 0 < List.count c s.serving := List.count_pos_iff.mpr hm
      simp only [List.count_append, List.count_cons, List.count_nil, List.count_erase]
      by_cases g : c = x
      · subst g; simp; omega
      · have g' : (x == c) = false := by simp [Ne.symm g]
        simp [g]; omega
    · exact absurd h (by simp)
  | clean c =>
    simp only [Front.step] at h
    split at h
    · simp only [Option.some.injEq] at h; subst h; exact hx
    · exact absurd h (by simp)

theorem front_step_order (index : Bool) (u : Nat → Bool) (s s' : Front) (a : FrontAct)
    (h : s.step index u a = some s') (l : Nat) :
    takenFrom l s'.taken ++ s'.queues l = takenFrom l s.taken ++ s.queues l ++ arrivalsAt l [a] := by
  cases a with
  | arrive l' c =>
    simp only [Front.step, Option.some.injEq] at h; subst h
    by_cases g : l = l'
    · subst g; simp [arrivalsAt]
    · simp [arrivalsAt, g, Ne.symm g]
  | reload m p =>
    simp only [Front.step] at h
    split at h
    · simp only [Option.some.injEq] at h; subst h; simp [arrivalsAt]
    · exact absurd h (by simp)
  | wait evs =>
    simp only [Front.step] at h
    split at h
    · cases hr : acceptAll u s.queues evs with
      | none => rw [hr] at h; exact absurd h (by simp)
      | some b =>
        rw [hr] at h
        simp only [Option.map_some, Option.some.injEq] at h
        subst h
        obtain ⟨-, h2⟩ := acceptAll_places u evs _ b hr
        simp only [takenFrom_append, arrivalsAt, List.append_nil, List.append_assoc, h2 l]
    · exact absurd h (by simp)
  | check =>
    simp only [Front.step] at h
    split at h
    · split at h
      all_goals (simp only [Option.some.injEq] at h; subst h; simp [arrivalsAt])
    · exact absurd h (by simp)
  | get created =>
    simp only [Front.step] at h
    split at h
    · exact absurd h (by simp)
    · split at h
      · simp only [Option.some.injEq] at h; subst h; simp [arrivalsAt]
      · split at h
        · simp only [Option.some.injEq] at h; subst h; simp [arrivalsAt]
        · split at h
          all_goals (simp only [Option.some.injEq] at h; subst h; simp [arrivalsAt])
  | finish c =>
    simp only [Front.step] at h
    split at h
    · simp only [Option.some.injEq] at h; subst h; simp [arrivalsAt]
    · exact absurd h (by simp)
  | clean c =>
    simp only [Front.step] at h
    split at h
    · simp only [Option.some.injEq] at h; subst h; simp [arrivalsAt]
    · exact absurd h (by simp)

theorem arrivalsAt_cons (l : Nat) (a : FrontAct) (as : List FrontAct) :
    arrivalsAt l (a :: as) = arrivalsAt l [a] ++ arrivalsAt l as := by
  cases a <;> simp only [arrivalsAt, List.nil_append]
  split <;> rfl

/-- **C82, each connection has one fate.**  Whatever clients, sessions and the operating system do: the connections taken
from a listening socket and those still waiting there are, in this order, those that were opened to it, so that they are
taken in the order in which they came; and the connections taken are, each once, those on the way to a thread, those being
served, those served to the end, those closed unserved and those left to themselves. -/
theorem C82_one_fate (index : Bool) (u : Nat → Bool) (m : UInt32) (p : Nat) (acts : List FrontAct) (s : Front)
    (h : Front.run index u { max := m, poolMax := p } acts = some s) :
    (∀ l, arrivalsAt l acts = takenFrom l s.taken ++ s.queues l) ∧ (s.taken.map Prod.snd).Perm s.places := by
  have gen : ∀ (acts : List FrontAct) (s0 s : Front), Front.run index u s0 acts = some s →
      (s0.taken.map Prod.snd).Perm s0.places →
      (∀ l, takenFrom l s.taken ++ s.queues l = takenFrom l s0.taken ++ s0.queues l ++ arrivalsAt l acts) ∧
        (s.taken.map Prod.snd).Perm s.places := by
    intro acts
    induction acts with
    | nil => intro s0 s h hp; cases h; exact ⟨fun l => by simp [arrivalsAt], hp⟩
    | cons a as ih =>
      intro s0 s h hp
      unfold Front.run at h
      split at h
      · exact absurd h (by simp)
      · rename_i s1 h1
        have ho := front_step_order index u s0 s1 a h1
        obtain ⟨-, h2⟩ := front_step_keeps index u s0 s1 a h1 ⟨ho, hp⟩
        obtain ⟨h3, h4⟩ := ih s1 s h h2
        refine ⟨fun l => ?_, h4⟩
        rw [h3 l, ho l, arrivalsAt_cons l a as]; simp only [List.append_assoc]
  obtain ⟨h1, h2⟩ := gen acts _ s h (List.Perm.refl _)
  exact ⟨fun l => by simpa [takenFrom] using (h1 l).symm, h2⟩

/-- What no step raises above the limit. -/
theorem front_step_bound (index : Bool) (u : Nat → Bool) (s s' : Front) (a : FrontAct) (M : Nat)
    (h : s.step index u a = some s') (hm : s.max.toNat ≤ M)
    (hr : ∀ m p, a = .reload m p → m.toNat ≤ M)
    (hb : s.size + s.chosen.toList.length ≤ M) :
    s'.max.toNat ≤ M ∧ s'.size + s'.chosen.toList.length ≤ M := by
  cases a with
  | arrive l c => simp only [Front.step, Option.some.injEq] at h; subst h; exact ⟨hm, hb⟩
  | reload m p =>
    simp only [Front.step] at h
    split at h
    · simp only [Option.some.injEq] at h; subst h; exact ⟨hr m p rfl, hb⟩
    · exact absurd h (by simp)
  | wait evs =>
    simp only [Front.step] at h
    split at h
    · cases hr : acceptAll u s.queues evs with
      | none => rw [hr] at h; exact absurd h (by simp)
      | some b =>
        rw [hr] at h
        simp only [Option.map_some, Option.some.injEq] at h
        subst h; exact ⟨hm, hb⟩
    · exact absurd h (by simp)
  | check =>
    simp only [Front.step] at h
    split at h
    · rename_i c cs ht hc
      split at h
      · simp only [Option.some.injEq] at h; subst h; exact ⟨hm, hb⟩
      · rename_i g
        simp only [Option.some.injEq] at h; subst h
        refine ⟨hm, ?_⟩
        simp only [Front.size, Option.toList, List.length_cons, List.length_nil] at g ⊢
        omega
    · exact absurd h (by simp)
  | get created =>
    simp only [Front.step] at h
    split at h
    · exact absurd h (by simp)
    · rename_i c hc
      simp only [Front.size, hc, Option.toList, List.length_cons, List.length_nil] at hb
      split at h
      · simp only [Option.some.injEq] at h; subst h
        refine ⟨hm, ?_⟩
        simp only [Front.size, List.length_append, Option.toList, List.length_cons, List.length_nil]; omega
      · split at h
        · simp only [Option.some.injEq] at h; subst h
          refine ⟨hm, ?_⟩
          simp only [Front.size, List.length_append, Option.toList, List.length_cons, List.length_nil]; omega
        · split at h
          all_goals
            simp only [Option.some.injEq] at h; subst h
            refine ⟨hm, ?_⟩
            simp only [Front.size, Option.toList, List.length_nil]; omega
  | finish c =>
    simp only [Front.step] at h
    split at h
    · rename_i hmem
      simp only [Option.some.injEq] at h; subst h
      refine ⟨hm, ?_⟩
      have := List.length_pos_of_mem hmem
      simp only [Front.size, List.length_append, List.length_erase_of_mem hmem, List.length_cons,
        List.length_nil] at hb ⊢
      omega
    · exact absurd h (by simp)
  | clean c =>
    simp only [Front.step] at h
    split at h
    · rename_i hmem
      simp only [Option.some.injEq] at h; subst h
      refine ⟨hm, ?_⟩
      simp only [Front.size, List.length_erase_of_mem hmem] at hb ⊢
      omega
    · exact absurd h (by simp)

/-- **C82, never more than the limit.**  If the limit was never above `M`, neither at the start nor by a reload, then at no
time are more than `M` sessions running, counting those whose thread has not been given back yet. -/
theorem C82_bound (index : Bool) (u : Nat → Bool) (m : UInt32) (p M : Nat) (acts : List FrontAct) (s : Front)
    (h : Front.run index u { max := m, poolMax := p } acts = some s) (hm : m.toNat ≤ M)
    (hr : ∀ m' p', .reload m' p' ∈ acts → m'.toNat ≤ M) : s.serving.length + s.leaving.length ≤ M := by
  have gen : ∀ (acts : List FrontAct) (s0 s : Front), Front.run index u s0 acts = some s → s0.max.toNat ≤ M →
      s0.size + s0.chosen.toList.length ≤ M → (∀ m' p', .reload m' p' ∈ acts → m'.toNat ≤ M) → s.size ≤ M := by
    intro acts
    induction acts with
    | nil => intro s0 s h _ hb _; cases h; omega
    | cons a as ih =>
      intro s0 s h hm hb hr
      unfold Front.run at h
      split at h
      · exact absurd h (by simp)
      · rename_i s1 h1
        obtain ⟨h2, h3⟩ := front_step_bound index u s0 s1 a M h1 hm
          (fun m' p' e => hr m' p' (by rw [e]; exact List.mem_cons_self)) hb
        exact ih s1 s h h2 h3 (fun m' p' e => hr m' p' (List.mem_cons_of_mem _ e))
  exact gen acts _ s h hm (Nat.zero_le _) hr

/-- The calls of the operating system that the process depends on succeed: the options of new sockets and the creation of
threads.  `accept` itself and the waiting may fail.  A Unix socket has no TCP_NODELAY. -/
def osGood (isUnix : Nat → Bool) : FrontAct → Bool
  | .wait evs => evs.all fun e => e.nonblock && e.keepalive && (e.nodelay || isUnix e.listener)
  | .get created => created
  | _ => true

theorem acceptAll_good (u : Nat → Bool) :
    ∀ (evs : List ReadyEvent) (q : Nat → List Nat) (a : Accepted), acceptAll u q evs = some a →
      (evs.all fun e => e.nonblock && e.keepalive && (e.nodelay || u e.listener)) = true → a.closed = [] := by
  intro evs
  induction evs with
  | nil => intro q a h _; cases h; rfl
  | cons e es ih =>
    intro q a h hg
    simp only [List.all_cons, Bool.and_eq_true] at hg
    obtain ⟨⟨⟨g1, g2⟩, g3⟩, g4⟩ := hg
    unfold acceptAll at h
    split at h
    · split at h
      · exact absurd h (by simp)
      · rename_i c rest hq
        have g3' : (!u e.listener && !e.nodelay) = false := by
          cases hu : u e.listener <;> cases hd : e.nodelay <;> simp [hu, hd] at g3 ⊢
        simp only [g1, g2, g3', Bool.not_true, Bool.false_eq_true, if_false] at h
        cases hr : acceptAll u (fun l => if l = e.listener then rest else q l) es with
        | none => rw [hr] at h; exact absurd h (by simp)
        | some b =>
          rw [hr] at h
          simp only [Option.map_some, Option.some.injEq] at h
          subst h
          exact ih _ b hr (by simpa using g4)
    · cases h; rfl

/-- **C82, why a connection is closed.**  As long as the operating system does what it is asked, a connection is closed
unserved only because, when its turn came, as many threads as the limit in force were taken - and none is ever left to
itself. -/
theorem C82_closed_when_full (index : Bool) (u : Nat → Bool) (m : UInt32) (p : Nat) (acts : List FrontAct) (s : Front)
    (h : Front.run index u { max := m, poolMax := p } acts = some s) (hg : acts.all (osGood u) = true) :
    s.stuck = [] ∧ ∀ c ∈ s.closed, ∃ pre post t rest, acts = pre ++ .check :: post ∧
      Front.run index u { max := m, poolMax := p } pre = some t ∧ t.todo = c :: rest ∧ t.max.toNat ≤ t.size := by
  have gen : ∀ (acts : List FrontAct) (s0 s : Front), Front.run index u s0 acts = some s → acts.all (osGood u) = true →
      s0.stuck = [] →
      s.stuck = [] ∧ ∀ c ∈ s.closed, c ∈ s0.closed ∨ ∃ pre post t rest, acts = pre ++ .check :: post ∧
        Front.run index u s0 pre = some t ∧ t.todo = c :: rest ∧ t.max.toNat ≤ t.size := by
    intro acts
    induction acts with
    | nil => intro s0 s h _ hs; cases h; exact ⟨hs, fun c hc => .inl hc⟩
    | cons a as ih =>
      intro s0 s h hg hs
      simp only [List.all_cons, Bool.and_eq_true] at hg
      obtain ⟨g1, g2⟩ := hg
      unfold Front.run at h
      split at h
      · exact absurd h (by simp)
      · rename_i s1 h1
        have key : s1.stuck = [] ∧ ∀ c ∈ s1.closed, c ∈ s0.closed ∨ (a = .check ∧ ∃ rest, s0.todo = c :: rest ∧
            s0.max.toNat ≤ s0.size) := by
          cases a with
          | arrive l c =>
            simp only [Front.step, Option.some.injEq] at h1; subst h1; exact ⟨hs, fun c hc => .inl hc⟩
          | reload m p =>
            simp only [Front.step] at h1
            split at h1
            · simp only [Option.some.injEq] at h1; subst h1; exact ⟨hs, fun c hc => .inl hc⟩
            · exact absurd h1 (by simp)
          | wait evs =>
            simp only [Front.step] at h1
            split at h1
            · cases hr : acceptAll u s0.queues evs with
              | none => rw [hr] at h1; exact absurd h1 (by simp)
              | some b =>
                rw [hr] at h1
                simp only [Option.map_some, Option.some.injEq] at h1
                subst h1
                have := acceptAll_good u evs _ b hr g1
                refine ⟨hs, fun c hc => .inl ?_⟩
                simpa [this] using hc
            · exact absurd h1 (by simp)
          | check =>
            simp only [Front.step] at h1
            split at h1
            · rename_i c cs ht hc
              split at h1
              · rename_i hfull
                simp only [Option.some.injEq] at h1; subst h1
                refine ⟨hs, fun x hx => ?_⟩
                simp only [List.mem_append, List.mem_singleton] at hx
                rcases hx with hx | hx
                · exact .inl hx
                · subst hx; exact .inr ⟨rfl, cs, ht, hfull⟩
              · simp only [Option.some.injEq] at h1; subst h1; exact ⟨hs, fun c hc => .inl hc⟩
            · exact absurd h1 (by simp)
          | get created =>
            simp only [osGood] at g1
            simp only [Front.step, g1, if_true] at h1
            split at h1
            · exact absurd h1 (by simp)
            · split at h1
              all_goals (simp only [Option.some.injEq] at h1; subst h1; exact ⟨hs, fun c hc => .inl hc⟩)
          | finish c =>
            simp only [Front.step] at h1
            split at h1
            · simp only [Option.some.injEq] at h1; subst h1; exact ⟨hs, fun c hc => .inl hc⟩
            · exact absurd h1 (by simp)
          | clean c =>
            simp only [Front.step] at h1
            split at h1
            · simp only [Option.some.injEq] at h1; subst h1; exact ⟨hs, fun c hc => .inl hc⟩
            · exact absurd h1 (by simp)
        obtain ⟨k1, k2⟩ := key
        obtain ⟨i1, i2⟩ := ih s1 s h g2 k1
        refine ⟨i1, fun c hc => ?_⟩
        rcases i2 c hc with hc | ⟨pre, post, t, rest, e1, e2, e3, e4⟩
        · rcases k2 c hc with hc | ⟨ea, rest, e1, e2⟩
          · exact .inl hc
          · exact .inr ⟨[], as, s0, rest, by rw [ea]; rfl, rfl, e1, e2⟩
        · refine .inr ⟨a :: pre, post, t, rest, by rw [e1]; rfl, ?_, e3, e4⟩
          simp only [Front.run, h1, e2]
  obtain ⟨h1, h2⟩ := gen acts _ s h hg rfl
  refine ⟨h1, fun c hc => ?_⟩
  rcases h2 c hc with h3 | h3
  · exact absurd h3 (by simp)
  · exact h3

/-- **C82, whoever waits gets a thread.**  However long the queue of a socket, its connections are served one after the
other by as many rounds of the main loop, as long as the limit leaves room for them. -/
theorem C82_served (index : Bool) (u : Nat → Bool) (l : Nat) :
    ∀ (cs rest : List Nat) (s : Front), s.todo = [] → s.chosen = none → s.queues l = cs ++ rest →
      s.size + cs.length ≤ s.max.toNat →
      ∃ s', Front.run index u s (cs.flatMap fun _ => [.wait [{ listener := l }], .check, .get true]) = some s' ∧
        s'.serving = s.serving ++ cs ∧ s'.queues l = rest ∧ s'.closed = s.closed ∧ s'.total = s.total + cs.length ∧
        s'.todo = [] ∧ s'.chosen = none := by
  intro cs
  induction cs with
  | nil =>
    intro rest s ht hc hq _
    exact ⟨s, rfl, by simp, by simpa using hq, rfl, rfl, ht, hc⟩
  | cons c cs ih =>
    intro rest s ht hc hq hroom
    simp only [List.length_cons, Front.size] at hroom
    have hwait : s.step index u (.wait [{ listener := l }]) = some
        { s with queues := fun l' => if l' = l then cs ++ rest else s.queues l', todo := [c],
                 closed := s.closed ++ [], taken := s.taken ++ [(l, c)] } := by
      simp only [Front.step, ht, hc, acceptAll, acceptTries, acceptRetryLimit, if_true, hq, List.cons_append,
        Bool.not_true, Bool.and_false, Bool.false_eq_true, if_false, Option.map_some]
    obtain ⟨q', hq'⟩ : ∃ q' : Nat → List Nat, q' = fun l' => if l' = l then cs ++ rest else s.queues l' := ⟨_, rfl⟩
    rw [← hq'] at hwait
    have hql : q' l = cs ++ rest := by rw [hq']; simp
    obtain ⟨s3, h3, e1, e2, e3, e4, e5⟩ : ∃ s3, Front.run index u s [.wait [{ listener := l }], .check, .get true] = some s3 ∧
        s3.serving = s.serving ++ [c] ∧ s3.leaving = s.leaving ∧ s3.queues = q' ∧ s3.max = s.max ∧
        s3.closed = s.closed ∧ s3.total = s.total + 1 ∧ s3.todo = [] ∧ s3.chosen = none := by
      have hfull : ¬ s.max.toNat ≤ s.serving.length + s.leaving.length := by omega
      by_cases hp : 0 < s.pool
      · exact ⟨_, by simp only [Front.run]; rw [hwait]; simp only [Front.step, hc, Front.size, if_neg hfull, if_pos hp]; rfl, by simp⟩
      · exact ⟨_, by simp only [Front.run]; rw [hwait]; simp only [Front.step, hc, Front.size, if_neg hfull, if_neg hp, if_true]; rfl, by simp⟩
    obtain ⟨e5, e6, e7, e8⟩ := e5
    have hsz : s3.size + cs.length ≤ s3.max.toNat := by
      simp only [Front.size, e1, e2, e4, List.length_append, List.length_cons, List.length_nil]; omega
    obtain ⟨s', h', f1, f2, f3, f4, f5, f6⟩ := ih rest s3 e7 e8 (by rw [e3, hql]) hsz
    refine ⟨s', ?_, by rw [f1, e1]; simp, f2, by rw [f3, e5], by rw [f4, e6, List.length_cons]; omega, f5, f6⟩
    have happ : ∀ (xs ys : List FrontAct) (t : Front), Front.run index u t (xs ++ ys) =
        (Front.run index u t xs).bind fun t' => Front.run index u t' ys := by
      intro xs
      induction xs with
      | nil => intro ys t; rfl
      | cons x xs ihx =>
        intro ys t
        simp only [List.cons_append, Front.run]
        cases t.step index u x with
        | none => rfl
        | some t1 => exact ihx ys t1
    rw [List.flatMap_cons, happ, h3]
    exact h'

/-- Two clients at a process that serves one at a time; the first leaves and the second comes after that. -/
example : ∃ s, Front.run false (fun _ => false) { max := 1, poolMax := 1 }
    [.arrive 0 7, .wait [{ listener := 0 }], .check, .get true, .finish 7, .clean 7,
     .arrive 0 8, .wait [{ listener := 0 }], .check, .get false] = some s ∧ s.serving = [8] ∧ s.ended = [7] ∧
     s.closed = [] ∧ s.total = 2 := ⟨_, rfl, rfl, rfl, rfl, rfl⟩

/-- **C82, a place is taken longer than its client.**  A client may be turned away although no other client is connected:
the thread of the one before has closed its connection and not yet given itself back. -/
theorem C82_late_place : ∃ acts s, Front.run false (fun _ => false) { max := 1, poolMax := 1 } acts = some s ∧
    acts.all (osGood fun _ => false) = true ∧ s.serving = [] ∧ s.ended = [7] ∧ s.closed = [8] :=
  ⟨[.arrive 0 7, .wait [{ listener := 0 }], .check, .get true, .finish 7,
    .arrive 0 8, .wait [{ listener := 0 }], .check], _, rfl, rfl, rfl, rfl, rfl⟩

theorem stuck_step (index : Bool) (u : Nat → Bool) (s s' : Front) (a : FrontAct) (h : s.step index u a = some s') :
    ∃ more, s'.stuck = s.stuck ++ more ∧ (index = false → more = []) := by
  cases a with
  | arrive l c => simp only [Front.step, Option.some.injEq] at h; subst h; exact ⟨[], by simp⟩
  | reload m p =>
    simp only [Front.step] at h
    split at h
    · simp only [Option.some.injEq] at h; subst h; exact ⟨[], by simp⟩
    · exact absurd h (by simp)
  | wait evs =>
    simp only [Front.step] at h
    split at h
    · cases hr : acceptAll u s.queues evs with
      | none => rw [hr] at h; exact absurd h (by simp)
      | some b =>
        rw [hr] at h
        simp only [Option.map_some, Option.some.injEq] at h
        subst h; exact ⟨[], by simp⟩
    · exact absurd h (by simp)
  | check =>
    simp only [Front.step] at h
    split at h
    · split at h
      all_goals (simp only [Option.some.injEq] at h; subst h; exact ⟨[], by simp⟩)
    · exact absurd h (by simp)
  | get created =>
    simp only [Front.step] at h
    split at h
    · exact absurd h (by simp)
    · rename_i c _
      split at h
      · simp only [Option.some.injEq] at h; subst h; exact ⟨[], by simp⟩
      · split at h
        · simp only [Option.some.injEq] at h; subst h; exact ⟨[], by simp⟩
        · split at h
          · rename_i hi
            simp only [Option.some.injEq] at h; subst h; exact ⟨[c], rfl, fun e => by rw [e] at hi; cases hi⟩
          · simp only [Option.some.injEq] at h; subst h; exact ⟨[], by simp⟩
  | finish c =>
    simp only [Front.step] at h
    split at h
    · simp only [Option.some.injEq] at h; subst h; exact ⟨[], by simp⟩
    · exact absurd h (by simp)
  | clean c =>
    simp only [Front.step] at h
    split at h
    · simp only [Option.some.injEq] at h; subst h; exact ⟨[], by simp⟩
    · exact absurd h (by simp)

/-- **C82, a data node leaves nobody to themselves**: also if threads cannot be created, every connection that was taken is
served or closed. -/
theorem C82_node_leaves_none (u : Nat → Bool) (m : UInt32) (p : Nat) (acts : List FrontAct) (s : Front)
    (h : Front.run false u { max := m, poolMax := p } acts = some s) : s.stuck = [] := by
  have gen : ∀ (acts : List FrontAct) (s0 s : Front), Front.run false u s0 acts = some s → s0.stuck = [] →
      s.stuck = [] := by
    intro acts
    induction acts with
    | nil => intro s0 s h hs; cases h; exact hs
    | cons a as ih =>
      intro s0 s h hs
      unfold Front.run at h
      split at h
      · exact absurd h (by simp)
      · rename_i s1 h1
        obtain ⟨more, e1, e2⟩ := stuck_step false u s0 s1 a h1
        exact ih s1 s h (by rw [e1, hs, e2 rfl]; rfl)
  exact gen acts _ s h rfl

/-- **C82, the index server does**: if the thread for a connection cannot be created, the connection is neither served nor
closed, whatever happens later. -/
theorem C82_index_leaves_some (u : Nat → Bool) (s s1 s2 : Front) (c : Nat) (acts : List FrontAct)
    (hc : s.chosen = some c) (hp : s.pool = 0) (h1 : s.step true u (.get false) = some s1)
    (h2 : Front.run true u s1 acts = some s2) : c ∈ s2.stuck := by
  have h0 : c ∈ s1.stuck := by
    simp only [Front.step, hc, hp, Nat.lt_irrefl, if_false, Bool.false_eq_true, if_true, Option.some.injEq] at h1
    subst h1; simp
  clear h1
  induction acts generalizing s1 with
  | nil => cases h2; exact h0
  | cons a as ih =>
    unfold Front.run at h2
    split at h2
    · exact absurd h2 (by simp)
    · rename_i t h1
      obtain ⟨more, e1, -⟩ := stuck_step true u s1 t a h1
      exact ih t h2 (by rw [e1]; exact List.mem_append_left _ h0)

/-- The index server really gets there. -/
example : ∃ s, Front.run true (fun _ => false) { max := 10, poolMax := 1 }
    [.arrive 0 7, .wait [{ listener := 0 }], .check, .get false] = some s ∧ s.stuck = [7] ∧ s.closed = [] :=
  ⟨_, rfl, rfl, rfl⟩

/-- **C82, descriptors.**  The limit that is asked for is two for each connection and sixteen - -/
theorem C82_descriptors (m : UInt32) (h : m.toNat < 2147483640) : (fdLimit m).toNat = 2 * m.toNat + 16 := by
  simp only [fdLimit, UInt32.toNat_add, UInt32.toNat_mul, UInt32.reduceToNat]
  omega

/-- - unless the number does not fit: then fewer are asked for than there may be connections, also for every negative
value of `max-connection` (which is read as such a number) but those from -16 to -9. -/
theorem C82_descriptors_wrap (m : UInt32) (h : 2147483640 ≤ m.toNat)
    (hn : m.toNat < 4294967280 ∨ 4294967288 ≤ m.toNat) : (fdLimit m).toNat < m.toNat := by
  have := m.toNat_lt
  simp only [fdLimit, UInt32.toNat_add, UInt32.toNat_mul, UInt32.reduceToNat]
  omega

example : (fdLimit 128).toNat = 272 ∧ (fdLimit (0 - 1)).toNat = 14 := by decide

theorem total_step (index : Bool) (u : Nat → Bool) (s s' : Front) (a : FrontAct) (h : s.step index u a = some s')
    (hg : osGood u a = true) (ht : s.total = s.serving.length + s.ended.length) :
    s'.total = s'.serving.length + s'.ended.length := by
  cases a with
  | arrive l c => simp only [Front.step, Option.some.injEq] at h; subst h; exact ht
  | reload m p =>
    simp only [Front.step] at h
    split at h
    · simp only [Option.some.injEq] at h; subst h; exact ht
    · exact absurd h (by simp)
  | wait evs =>
    simp only [Front.step] at h
    split at h
    · cases hr : acceptAll u s.queues evs with
      | none => rw [hr] at h; exact absurd h (by simp)
      | some b =>
        rw [hr] at h
        simp only [Option.map_some, Option.some.injEq] at h
        subst h; exact ht
    · exact absurd h (by simp)
  | check =>
    simp only [Front.step] at h
    split at h
    · split at h
      all_goals (simp only [Option.some.injEq] at h; subst h; exact ht)
    · exact absurd h (by simp)
  | get created =>
    simp only [osGood] at hg
    simp only [Front.step, hg, if_true] at h
    split at h
    · exact absurd h (by simp)
    · split at h
      all_goals
        simp only [Option.some.injEq] at h; subst h
        simp only [List.length_append, List.length_cons, List.length_nil]; omega
  | finish c =>
    simp only [Front.step] at h
    split at h
    · rename_i hmem
      simp only [Option.some.injEq] at h; subst h
      have := List.length_pos_of_mem hmem
      simp only [List.length_append, List.length_erase_of_mem hmem, List.length_cons, List.length_nil]; omega
    · exact absurd h (by simp)
  | clean c =>
    simp only [Front.step] at h
    split at h
    · simp only [Option.some.injEq] at h; subst h; exact ht
    · exact absurd h (by simp)

/-- **C82, `total_connections`** counts the connections that are or were served, and no others - if threads can be
created. -/
theorem C82_total (index : Bool) (u : Nat → Bool) (m : UInt32) (p : Nat) (acts : List FrontAct) (s : Front)
    (h : Front.run index u { max := m, poolMax := p } acts = some s) (hg : acts.all (osGood u) = true) :
    s.total = s.serving.length + s.ended.length := by
  have gen : ∀ (acts : List FrontAct) (s0 s : Front), Front.run index u s0 acts = some s → acts.all (osGood u) = true →
      s0.total = s0.serving.length + s0.ended.length → s.total = s.serving.length + s.ended.length := by
    intro acts
    induction acts with
    | nil => intro s0 s h _ ht; cases h; exact ht
    | cons a as ih =>
      intro s0 s h hg ht
      simp only [List.all_cons, Bool.and_eq_true] at hg
      unfold Front.run at h
      split at h
      · exact absurd h (by simp)
      · rename_i s1 h1
        exact ih s1 s h hg.2 (total_step index u s0 s1 a h1 hg.1 ht)
  exact gen acts _ s h hg rfl

/-- If they cannot, it counts connections that were closed at once. -/
example : ∃ s, Front.run false (fun _ => false) { max := 10, poolMax := 1 }
    [.arrive 0 7, .wait [{ listener := 0 }], .check, .get false] = some s ∧ s.total = 1 ∧ s.closed = [7] :=
  ⟨_, rfl, rfl, rfl⟩

/-! ### What the loop around `accept` and the pool do -/

/-- **C82, `accept` is tried again** as long as it fails with EAGAIN or EINTR, sixteen times in all, and gives up at once
at any other error. -/
theorem C82_accept_tries (ts : List AcceptTry) : acceptTries acceptRetryLimit ts = true ↔
    ∃ j rest, j < 16 ∧ ts = List.replicate j .again ++ .sock :: rest := by
  have gen : ∀ (n : Nat) (ts : List AcceptTry), acceptTries n ts = true ↔
      ∃ j rest, j < n ∧ ts = List.replicate j .again ++ .sock :: rest := by
    intro n
    induction n with
    | zero => intro ts; cases ts <;> simp [acceptTries]
    | succ n ih =>
      intro ts
      cases ts with
      | nil =>
        simp only [acceptTries, Bool.false_eq_true, false_iff]
        rintro ⟨j, rest, -, h⟩
        cases j <;> simp [List.replicate] at h
      | cons t ts =>
        cases t with
        | sock => simp only [acceptTries, true_iff]; exact ⟨0, ts, Nat.succ_pos n, rfl⟩
        | again =>
          simp only [acceptTries, ih]
          constructor
          · rintro ⟨j, rest, h1, h2⟩; exact ⟨j + 1, rest, Nat.succ_lt_succ h1, by rw [h2]; rfl⟩
          · rintro ⟨j, rest, h1, h2⟩
            cases j with
            | zero => cases h2
            | succ j => exact ⟨j, rest, Nat.lt_of_succ_lt_succ h1, by injection h2⟩
        | fail =>
          simp only [acceptTries, Bool.false_eq_true, false_iff]
          rintro ⟨j, rest, -, h⟩
          cases j <;> cases h
  exact gen 16 ts

example : acceptTries acceptRetryLimit (List.replicate 15 .again ++ [.sock]) = true :=
  (C82_accept_tries _).2 ⟨15, [], by decide, rfl⟩

/-- The main thread asks the pool for a thread. -/
def FrontAct.isGet : FrontAct → Bool
  | .get _ => true
  | _ => false

/-- A session gives its thread back. -/
def FrontAct.isClean : FrontAct → Bool
  | .clean _ => true
  | _ => false

/-- No thread can be created. -/
def FrontAct.noThreads : FrontAct → Bool
  | .get created => !created
  | _ => true

theorem pool_step (index : Bool) (u : Nat → Bool) (s s' : Front) (a : FrontAct) (h : s.step index u a = some s') :
    s'.total = s.total + (if a.isGet then 1 else 0) ∧
    (∀ M, s.poolMax ≤ M → s.pool ≤ M → (∀ m p, a = .reload m p → p ≤ M) → s'.poolMax ≤ M ∧ s'.pool ≤ M) ∧
    (a.noThreads = true → s'.serving.length + s'.ended.length + s'.pool ≤
      s.serving.length + s.ended.length + s.pool + (if a.isClean then 1 else 0)) := by
  cases a with
  | arrive l c =>
    simp only [Front.step, Option.some.injEq] at h; subst h
    exact ⟨rfl, fun M h1 h2 _ => ⟨h1, h2⟩, fun _ => Nat.le_refl _⟩
  | reload m p =>
    simp only [Front.step] at h
    split at h
    · simp only [Option.some.injEq] at h; subst h
      exact ⟨rfl, fun M h1 h2 h3 => ⟨h3 m p rfl, h2⟩, fun _ => Nat.le_refl _⟩
    · exact absurd h (by simp)
  | wait evs =>
    simp only [Front.step] at h
    split at h
    · cases ha : acceptAll u s.queues evs with
      | none => rw [ha] at h; exact absurd h (by simp)
      | some a =>
        rw [ha] at h
        simp only [Option.map_some, Option.some.injEq] at h; subst h
        exact ⟨rfl, fun M h1 h2 _ => ⟨h1, h2⟩, fun _ => Nat.le_refl _⟩
    · exact absurd h (by simp)
  | check =>
    simp only [Front.step] at h
    split at h
    · split at h
      all_goals
        simp only [Option.some.injEq] at h; subst h
        exact ⟨rfl, fun M h1 h2 _ => ⟨h1, h2⟩, fun _ => Nat.le_refl _⟩
    · exact absurd h (by simp)
  | get created =>
    simp only [Front.step] at h
    split at h
    · exact absurd h (by simp)
    · split at h
      · rename_i hp
        simp only [Option.some.injEq] at h; subst h
        refine ⟨rfl, fun M h1 h2 _ => ⟨h1, by simp only; omega⟩, fun _ => ?_⟩
        simp only [List.length_append, List.length_cons, List.length_nil, FrontAct.isClean]; omega
      · split at h
        · rename_i hc
          simp only [Option.some.injEq] at h; subst h
          exact ⟨rfl, fun M h1 h2 _ => ⟨h1, h2⟩, fun hn => by simp [FrontAct.noThreads, hc] at hn⟩
        · split at h
          all_goals
            simp only [Option.some.injEq] at h; subst h
            exact ⟨rfl, fun M h1 h2 _ => ⟨h1, h2⟩, fun _ => Nat.le_refl _⟩
  | finish c =>
    simp only [Front.step] at h
    split at h
    · rename_i hmem
      simp only [Option.some.injEq] at h; subst h
      refine ⟨rfl, fun M h1 h2 _ => ⟨h1, h2⟩, fun _ => ?_⟩
      have := List.length_pos_of_mem hmem
      simp only [List.length_append, List.length_erase_of_mem hmem, List.length_cons, List.length_nil]; omega
    · exact absurd h (by simp)
  | clean c =>
    simp only [Front.step] at h
    split at h
    · simp only [Option.some.injEq] at h; subst h
      refine ⟨rfl, fun M h1 h2 _ => ⟨h1, ?_⟩, fun _ => ?_⟩
      · simp only; split <;> omega
      · simp only [FrontAct.isClean, if_true]; split <;> omega
    · exact absurd h (by simp)

/-- **C82, `total_connections` in general** counts the connections a thread was asked for, also those for which none could
be created. -/
theorem C82_total_asked (index : Bool) (u : Nat → Bool) (m : UInt32) (p : Nat) (acts : List FrontAct) (s : Front)
    (h : Front.run index u { max := m, poolMax := p } acts = some s) : s.total = acts.countP FrontAct.isGet := by
  have gen : ∀ (acts : List FrontAct) (s0 s : Front), Front.run index u s0 acts = some s →
      s.total = s0.total + acts.countP FrontAct.isGet := by
    intro acts
    induction acts with
    | nil => intro s0 s h; cases h; rfl
    | cons a as ih =>
      intro s0 s h
      unfold Front.run at h
      split at h
      · exact absurd h (by simp)
      · rename_i s1 h1
        rw [ih s1 s h, (pool_step index u s0 s1 a h1).1, List.countP_cons]
        omega
  rw [gen acts _ s h]
  exact Nat.zero_add _

/-- **C82, idle threads** are never more than the greatest `thread-pool-size` there was. -/
theorem C82_idle_bound (index : Bool) (u : Nat → Bool) (m : UInt32) (p M : Nat) (acts : List FrontAct) (s : Front)
    (h : Front.run index u { max := m, poolMax := p } acts = some s) (hp : p ≤ M)
    (hr : ∀ m' p', .reload m' p' ∈ acts → p' ≤ M) : s.pool ≤ M := by
  have gen : ∀ (acts : List FrontAct) (s0 s : Front), Front.run index u s0 acts = some s → s0.poolMax ≤ M →
      s0.pool ≤ M → (∀ m' p', .reload m' p' ∈ acts → p' ≤ M) → s.pool ≤ M := by
    intro acts
    induction acts with
    | nil => intro s0 s h _ h2 _; cases h; exact h2
    | cons a as ih =>
      intro s0 s h h1 h2 hr
      unfold Front.run at h
      split at h
      · exact absurd h (by simp)
      · rename_i s1 hs
        obtain ⟨-, h3, -⟩ := pool_step index u s0 s1 a hs
        obtain ⟨h4, h5⟩ := h3 M h1 h2 (fun m' p' e => hr m' p' (by rw [e]; exact List.mem_cons_self ..))
        exact ih s1 s h h4 h5 (fun m' p' hm => hr m' p' (List.mem_cons_of_mem _ hm))
  exact gen acts _ s h hp (Nat.zero_le _) hr

/-- **C82, a thread serves one connection at a time**: while no thread can be created, no more sessions begin than there
were idle threads and threads given back. -/
theorem C82_one_at_a_time (index : Bool) (u : Nat → Bool) : ∀ (acts : List FrontAct) (s s' : Front),
    Front.run index u s acts = some s' → acts.all FrontAct.noThreads = true →
    s'.serving.length + s'.ended.length + s'.pool ≤
      s.serving.length + s.ended.length + s.pool + acts.countP FrontAct.isClean := by
  intro acts
  induction acts with
  | nil => intro s s' h _; cases h; exact Nat.le_refl _
  | cons a as ih =>
    intro s s' h hn
    simp only [List.all_cons, Bool.and_eq_true] at hn
    unfold Front.run at h
    split at h
    · exact absurd h (by simp)
    · rename_i s1 h1
      have h2 := ih s1 s' h hn.2
      have h3 := (pool_step index u s s1 a h1).2.2 hn.1
      rw [List.countP_cons]
      omega

/-- One idle thread: the first of two connections gets it, the second none. -/
example : ∃ s, Front.run false (fun _ => false) { max := 10, poolMax := 1, pool := 1 }
    [.arrive 0 7, .arrive 0 8, .wait [{ listener := 0 }, { listener := 0 }], .check, .get false, .check, .get false] = some s ∧
    s.serving = [7] ∧ s.closed = [8] ∧ s.pool = 0 ∧ s.total = 2 := ⟨_, rfl, rfl, rfl, rfl, rfl⟩

end Flare
