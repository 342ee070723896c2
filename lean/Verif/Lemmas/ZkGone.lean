import Verif.Lemmas.ZkClean

/-! Nodes of sessions that have expired. -/
namespace Flare

/-- Prefixes belong to the objects that drew them, and no node in the directory is of an expired session. -/
structure LkGone (s : LkSys) : Prop where
  pre : ∀ c k, (s.objs c).pre = some k → s.pres[k]? = some c
  fly : ∀ c k n, .create c k n ∈ s.flying → s.pres[k]? = some c
  who : ∀ x ∈ s.now, x.who < s.pres.length
  gone : ∀ c, (s.objs c).alive = false → ∀ x ∈ s.now, s.pres[x.who]? ≠ some c

theorem LkGone.upd {s : LkSys} (G : LkGone s) (c : Nat) (f : LkObj → LkObj)
    (hp : (f (s.objs c)).pre = (s.objs c).pre ∨ (f (s.objs c)).pre = none)
    (ha : (f (s.objs c)).alive = (s.objs c).alive) : LkGone (s.upd c f) := by
  refine ⟨?_, G.fly, G.who, ?_⟩
  · intro d k h
    by_cases e : d = c
    · subst e
      rw [lkUpd_self] at h
      rcases hp with hp | hp
      · exact G.pre d k (hp ▸ h)
      · rw [hp] at h; cases h
    · rw [lkUpd_other _ e] at h; exact G.pre d k h
  · intro d h
    by_cases e : d = c
    · subst e; rw [lkUpd_self, ha] at h; exact G.gone d h
    · rw [lkUpd_other _ e] at h; exact G.gone d h

theorem LkGone.exec {s : LkSys} (G : LkGone s) (q : ZReq)
    (hq : ∀ c k n, q = .create c k n → s.pres[k]? = some c) : LkGone (s.exec q) := by
  cases q with
  | create c k n =>
    have hk := hq c k n rfl
    simp only [LkSys.exec]
    split
    · rename_i hal
      refine ⟨G.pre, G.fly, ?_, ?_⟩
      · intro x hx
        rw [(push_now _ _).1, List.mem_append, List.mem_singleton] at hx
        rcases hx with hx | hx
        · exact G.who x hx
        · subst hx; exact lt_of_pres hk
      · intro d hd x hx
        rw [(push_now _ _).1, List.mem_append, List.mem_singleton] at hx
        rcases hx with hx | hx
        · exact G.gone d hd x hx
        · subst hx
          intro h
          have h : s.pres[k]? = some d := h
          have e : c = d := Option.some.inj (hk.symm.trans h)
          subst e
          rw [show (s.objs c).alive = false from hd] at hal
          cases hal
    · exact G
  | delete n =>
    refine ⟨G.pre, G.fly, ?_, ?_⟩
    · intro x hx
      simp only [LkSys.exec, (push_now _ _).1] at hx
      exact G.who x (List.mem_filter.1 hx).1
    · intro d hd x hx
      simp only [LkSys.exec, (push_now _ _).1] at hx
      exact G.gone d hd x (List.mem_filter.1 hx).1

theorem LkGone.lose {s : LkSys} (G : LkGone s) (b : Bool) (q : ZReq)
    (hq : ∀ c k n, q = .create c k n → s.pres[k]? = some c) : LkGone (s.lose b q) := by
  unfold LkSys.lose
  split
  · exact G.exec q hq
  · refine ⟨G.pre, ?_, G.who, G.gone⟩
    intro c k n h
    rcases List.mem_append.1 h with h | h
    · exact G.fly c k n h
    · exact hq c k n (List.mem_singleton.1 h).symm

theorem LkGone.draw {s : LkSys} (G : LkGone s) (c : Nat) :
    LkGone (lkDraw s c) ∧ (lkDraw s c).pres[(s.objs c).pre.getD s.pres.length]? = some c := by
  unfold lkDraw
  split
  · rename_i h
    obtain ⟨k, hk⟩ := Option.isSome_iff_exists.1 h
    refine ⟨G, ?_⟩
    rw [hk]; exact G.pre c k hk
  · rename_i h
    have hn : (s.objs c).pre = none := by
      cases e : (s.objs c).pre with
      | none => rfl
      | some k => rw [e] at h; exact absurd rfl h
    have old : ∀ k d : Nat, s.pres[k]? = some d → (s.pres ++ [c])[k]? = some d := by
      intro k d hk
      rw [List.getElem?_append_left (lt_of_pres hk)]; exact hk
    refine ⟨⟨?_, fun d k n hm => old k d (G.fly d k n hm), ?_, ?_⟩, ?_⟩
    · intro d k hk
      by_cases e : d = c
      · subst e
        have hk : ((s.upd d fun o => { o with pre := some s.pres.length }).objs d).pre = some k := hk
        rw [lkUpd_self] at hk
        have e : s.pres.length = k := Option.some.inj hk
        subst e
        simp
      · have hk : ((s.upd c fun o => { o with pre := some s.pres.length }).objs d).pre = some k := hk
        rw [lkUpd_other _ e] at hk
        exact old k d (G.pre d k hk)
    · intro x hx
      have := G.who x hx
      simp only [List.length_append, List.length_singleton]
      omega
    · intro d hd x hx
      have hd : (s.objs d).alive = false := by
        by_cases e : d = c
        · subst e
          have hd : ((s.upd d fun o => { o with pre := some s.pres.length }).objs d).alive = false := hd
          rw [lkUpd_self] at hd; exact hd
        · have hd : ((s.upd c fun o => { o with pre := some s.pres.length }).objs d).alive = false := hd
          rw [lkUpd_other _ e] at hd; exact hd
      show (s.pres ++ [c])[x.who]? ≠ some d
      rw [List.getElem?_append_left (G.who x hx)]
      exact G.gone d hd x hx
    · rw [hn]; simp

theorem LkGone.dir {s : LkSys} (G : LkGone s) (b : Bool) : LkGone { s with dir := b } := ⟨G.pre, G.fly, G.who, G.gone⟩

theorem LkGone.unlock {s : LkSys} (G : LkGone s) (c : Nat) (a : ZAns) : LkGone (s.unlockCall c a).1 := by
  unfold LkSys.unlockCall
  cases (s.objs c).id with
  | none => exact G
  | some n =>
    cases a with
    | ok i l =>
      simp only
      split
      · try dsimp only [LkSys.lockCall, LkSys.setUser, LkSys.setZk]
        refine LkGone.upd ?_ _ _ (.inr rfl) rfl
        exact G.exec _ (fun _ _ _ h => by cases h)
      · exact G
    | lost b => exact G.lose _ _ (fun _ _ _ h => by cases h)
    | fail => exact G

theorem LkGone.call {s : LkSys} (G : LkGone s) (c : Nat) (again : Bool) (a : ZAns) (p : LkAt) :
    LkGone (s.lockCall c again a p).1 := by
  cases p with
  | parent r => cases a <;> simp only [LkSys.lockCall] <;> (repeat' split) <;> exact G
  | mkParent r => cases a <;> simp only [LkSys.lockCall] <;> (repeat' split) <;> first | exact G | exact G.dir _
  | list1 r =>
    cases a <;> simp only [LkSys.lockCall] <;> (repeat' split) <;> first | exact G | ((try dsimp only [LkSys.lockCall, LkSys.setUser, LkSys.setZk]); exact LkGone.upd G _ _ (.inl rfl) rfl)
  | make old =>
    rw [lockCall_make]
    obtain ⟨D, h⟩ := G.draw c
    cases a with
    | ok i l =>
      simp only
      split
      · try dsimp only [LkSys.lockCall, LkSys.setUser, LkSys.setZk]
        refine LkGone.upd ?_ _ _ (.inl rfl) rfl
        exact D.exec _ (fun _ _ _ e => by cases e; exact h)
      · exact G
    | lost b =>
      try dsimp only [LkSys.lockCall, LkSys.setUser, LkSys.setZk]
      refine LkGone.upd ?_ _ _ (.inl rfl) rfl
      exact D.lose _ _ (fun _ _ _ e => by cases e; exact h)
    | fail => ((try dsimp only [LkSys.lockCall, LkSys.setUser, LkSys.setZk]); exact LkGone.upd G _ _ (.inl rfl) rfl)
  | list2 r old =>
    cases a with
    | ok i l =>
      simp only [LkSys.lockCall]
      split
      · have U : LkGone (s.upd c fun o => { o with seen := i }) := G.upd c _ (.inl (by rfl)) (by rfl)
        unfold lkDecide
        (repeat' split) <;> first | exact U | ((try dsimp only [LkSys.lockCall, LkSys.setUser, LkSys.setZk]); exact LkGone.upd U _ _ (.inl rfl) rfl)
      · exact G
    | lost b => simp only [LkSys.lockCall]; split <;> exact G
    | fail => exact G
  | own => ((try dsimp only [LkSys.lockCall, LkSys.setUser, LkSys.setZk]); exact LkGone.upd G _ _ (.inl rfl) rfl)
  | lose => ((try dsimp only [LkSys.lockCall, LkSys.setUser, LkSys.setZk]); exact LkGone.upd G _ _ (.inl rfl) rfl)
  | watch q r =>
    cases a <;> simp only [LkSys.lockCall] <;> (repeat' split) <;> first | exact G | ((try dsimp only [LkSys.lockCall, LkSys.setUser, LkSys.setZk]); exact LkGone.upd G _ _ (.inl rfl) rfl)
  | giveUp =>
    have k := G.unlock c a
    unfold LkSys.lockCall
    cases e : s.unlockCall c a with
    | mk t b => rw [e] at k; cases b <;> exact k

theorem LkGone.step {s : LkSys} (G : LkGone s) (ev : LkEv) : LkGone (lkStep s ev) := by
  cases ev with
  | user c a =>
    simp only [lkStep, LkSys.userStep]
    cases hu : (s.objs c).user with
    | locking p =>
      have h := G.call c false a p
      simp only
      cases e : s.lockCall c false a p with
      | mk t nx => rw [e] at h; cases nx with
        | go q => ((try dsimp only [LkSys.lockCall, LkSys.setUser, LkSys.setZk]); exact LkGone.upd h _ _ (.inl rfl) rfl)
        | ret b => cases b <;> ((try dsimp only [LkSys.lockCall, LkSys.setUser, LkSys.setZk]); exact LkGone.upd h _ _ (.inl rfl) rfl)
    | checking p =>
      have h := G.call c false a p
      simp only
      cases e : s.lockCall c false a p with
      | mk t nx => rw [e] at h; cases nx with
        | go q => ((try dsimp only [LkSys.lockCall, LkSys.setUser, LkSys.setZk]); exact LkGone.upd h _ _ (.inl rfl) rfl)
        | ret b =>
          have h2 : LkGone (t.setUser c .waiting) := LkGone.upd h _ _ (.inl rfl) rfl
          ((try dsimp only [LkSys.lockCall, LkSys.setUser, LkSys.setZk]); exact LkGone.upd h2 _ _ (.inl rfl) rfl)
    | unlocking =>
      have h := G.unlock c a
      simp only
      cases e : s.unlockCall c a with
      | mk t b => rw [e] at h; cases b with
        | true => ((try dsimp only [LkSys.lockCall, LkSys.setUser, LkSys.setZk]); exact LkGone.upd h _ _ (.inl rfl) rfl)
        | false => exact h
    | out => exact G
    | locked => exact G
    | waiting => exact G
    | inside => exact G
    | failed => exact G
  | zk c a =>
    simp only [lkStep, LkSys.zkStep]
    cases hz : (s.objs c).zk with
    | none => exact G
    | some p =>
      have h := G.call c true a p
      simp only
      cases e : s.lockCall c true a p with
      | mk t nx => rw [e] at h; cases nx <;> ((try dsimp only [LkSys.lockCall, LkSys.setUser, LkSys.setZk]); exact LkGone.upd h _ _ (.inl rfl) rfl)
  | land i =>
    simp only [lkStep]
    cases e : s.flying[i]? with
    | none => exact G
    | some q =>
      have F : LkGone { s with flying := s.flying.eraseIdx i } :=
        ⟨G.pre, fun c k n h => G.fly c k n (List.mem_of_mem_eraseIdx h), G.who, G.gone⟩
      exact F.exec q (fun c k n h => G.fly c k n (h ▸ List.mem_of_getElem? e))
  | expire c =>
    simp only [lkStep]
    refine ⟨?_, G.fly, ?_, ?_⟩
    · intro d k h
      by_cases e : d = c
      · subst e; rw [lkUpd_self] at h; exact G.pre d k h
      · rw [lkUpd_other _ e] at h; exact G.pre d k h
    · intro x hx
      have hx : x ∈ (s.push (s.next, s.now.filter fun x => s.pres[x.who]? ≠ some c)).now := hx
      rw [(push_now _ _).1] at hx
      exact G.who x (List.mem_filter.1 hx).1
    · intro d hd x hx
      have hx : x ∈ (s.push (s.next, s.now.filter fun x => s.pres[x.who]? ≠ some c)).now := hx
      rw [(push_now _ _).1] at hx
      obtain ⟨h1, h2⟩ := List.mem_filter.1 hx
      by_cases e : d = c
      · subst e; exact of_decide_eq_true h2
      · rw [lkUpd_other _ e] at hd; exact G.gone d hd x h1
  | lock c told => simp only [lkStep]; (repeat' split) <;> first | exact G | ((try dsimp only [LkSys.lockCall, LkSys.setUser, LkSys.setZk]); exact LkGone.upd G _ _ (.inl rfl) rfl)
  | await c told => simp only [lkStep]; (repeat' split) <;> first | exact G | ((try dsimp only [LkSys.lockCall, LkSys.setUser, LkSys.setZk]); exact LkGone.upd G _ _ (.inl rfl) rfl)
  | timeout c => simp only [lkStep]; (repeat' split) <;> first | exact G | ((try dsimp only [LkSys.lockCall, LkSys.setUser, LkSys.setZk]); exact LkGone.upd G _ _ (.inl rfl) rfl)
  | wake c => simp only [lkStep]; (repeat' split) <;> first | exact G | ((try dsimp only [LkSys.lockCall, LkSys.setUser, LkSys.setZk]); exact LkGone.upd G _ _ (.inl rfl) rfl)
  | unlock c told => simp only [lkStep]; (repeat' split) <;> first | exact G | ((try dsimp only [LkSys.lockCall, LkSys.setUser, LkSys.setZk]); exact LkGone.upd G _ _ (.inl rfl) rfl)
  | fire c => simp only [lkStep]; (repeat' split) <;> first | exact G | ((try dsimp only [LkSys.lockCall, LkSys.setUser, LkSys.setZk]); exact LkGone.upd G _ _ (.inl rfl) rfl)

theorem LkGone.run {s : LkSys} (G : LkGone s) : ∀ evs, LkGone (lkRun s evs)
  | [] => G
  | ev :: evs => by
    have := (G.step ev).run evs
    exact this
  termination_by evs => evs.length

theorem LkGone.init (d : Bool) : LkGone { dir := d } :=
  ⟨fun _ _ h => (by cases h), fun _ _ _ h => (by cases h), fun _ h => (by cases h), fun _ h => (by cases h)⟩

end Flare
