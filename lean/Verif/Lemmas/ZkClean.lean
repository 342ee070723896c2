import Verif.Lemmas.ZkCode

/-! More about the statement by statement model of the shared lock: a step changes one object only, and
which nodes an object may leave behind. -/
namespace Flare

theorem unlockCall_other (s : LkSys) (c : Nat) (a : ZAns) (d : Nat) (h : d ≠ c) :
    (s.unlockCall c a).1.objs d = s.objs d := by
  unfold LkSys.unlockCall
  split
  · rfl
  · split
    · split
      · rw [lkUpd_other _ h, exec_objs]
      · rfl
    · simp only [lose_objs]
    · rfl

theorem lkDecide_other (s : LkSys) (c : Nat) (v : List ZNode) (d : Nat) (h : d ≠ c) :
    (lkDecide s c v).1.objs d = s.objs d := by
  unfold lkDecide
  split
  · simp only [lkUpd_other _ h]
  · split
    · rfl
    · split
      · split <;> rfl
      · rfl

theorem lkDraw_other (s : LkSys) (c d : Nat) (h : d ≠ c) : (lkDraw s c).objs d = s.objs d := by
  unfold lkDraw; split
  · rfl
  · simp only [LkSys.upd, if_neg h]

/-- The creation of a node, once the prefix is drawn. -/
theorem lockCall_make (s : LkSys) (c : Nat) (again : Bool) (a : ZAns) (old : List ZNode) :
    s.lockCall c again a (.make old) =
      match a with
      | .ok skip _ =>
        if (s.objs c).alive then
          (((lkDraw s c).exec (.create c ((s.objs c).pre.getD s.pres.length) skip)).upd c fun o =>
            { o with id := some ⟨s.next + skip, (s.objs c).pre.getD s.pres.length⟩, seen := s.views.length },
            .go (.list2 2 old))
        else (s, .go (.make old))
      | .lost done =>
        (((lkDraw s c).lose done (.create c ((s.objs c).pre.getD s.pres.length) 0)).upd c fun o =>
          { o with garbage := true }, .ret false)
      | .fail => (s.upd c fun o => { o with garbage := true }, .ret false) := by
  cases a <;> rfl

theorem lockCall_other (s : LkSys) (c : Nat) (again : Bool) (a : ZAns) (p : LkAt) (d : Nat) (h : d ≠ c) :
    (s.lockCall c again a p).1.objs d = s.objs d := by
  cases p with
  | parent r => cases a <;> simp only [LkSys.lockCall] <;> (repeat' split) <;> rfl
  | mkParent r => cases a <;> simp only [LkSys.lockCall] <;> (repeat' split) <;> rfl
  | list1 r =>
    cases a <;> simp only [LkSys.lockCall] <;> (repeat' split) <;> first | rfl | (simp only [LkSys.upd, if_neg h]; done)
  | make old =>
    rw [lockCall_make]
    cases a with
    | ok i l =>
      simp only
      split
      · simp only [lkUpd_other _ h, exec_objs, lkDraw_other s c d h]
      · rfl
    | lost b => simp only [lkUpd_other _ h, lose_objs, lkDraw_other s c d h]
    | fail => simp only [lkUpd_other _ h]
  | list2 r old =>
    cases a with
    | ok i l =>
      simp only [LkSys.lockCall]
      split
      · rw [lkDecide_other _ _ _ _ h, lkUpd_other _ h]
      · rfl
    | lost b => simp only [LkSys.lockCall]; split <;> rfl
    | fail => rfl
  | own => simp only [LkSys.lockCall, lkUpd_other _ h]
  | lose => simp only [LkSys.lockCall, lkUpd_other _ h]
  | watch q r =>
    cases a <;> simp only [LkSys.lockCall] <;> (repeat' split) <;> first | rfl | (simp only [LkSys.upd, if_neg h]; done)
  | giveUp =>
    have k := unlockCall_other s c a d h
    unfold LkSys.lockCall
    cases e : s.unlockCall c a with
    | mk t b => rw [e] at k; cases b <;> exact k

theorem lkStep_same (s : LkSys) (ev : LkEv) (d : Nat) (h : d ≠ ev.obj) : (lkStep s ev).objs d = s.objs d := by
  cases ev with
  | user c a =>
    simp only [LkEv.obj] at h
    simp only [lkStep, LkSys.userStep]
    cases hu : (s.objs c).user with
    | locking p =>
      have k := lockCall_other s c false a p d h
      simp only
      cases e : s.lockCall c false a p with
      | mk t nx =>
        rw [e] at k
        cases nx with
        | go q => simp only [LkSys.setUser, lkUpd_other _ h]; exact k
        | ret b => cases b <;> simp only [LkSys.setUser, lkUpd_other _ h] <;> exact k
    | checking p =>
      have k := lockCall_other s c false a p d h
      simp only
      cases e : s.lockCall c false a p with
      | mk t nx => rw [e] at k; cases nx <;> simp only [LkSys.setUser, lkUpd_other _ h] <;> exact k
    | unlocking =>
      have k := unlockCall_other s c a d h
      simp only
      cases e : s.unlockCall c a with
      | mk t b =>
        rw [e] at k
        cases b with
        | true => simp only [LkSys.setUser, lkUpd_other _ h]; exact k
        | false => exact k
    | out => rfl
    | locked => rfl
    | waiting => rfl
    | inside => rfl
    | failed => rfl
  | zk c a =>
    simp only [LkEv.obj] at h
    simp only [lkStep, LkSys.zkStep]
    cases hz : (s.objs c).zk with
    | none => rfl
    | some p =>
      have k := lockCall_other s c true a p d h
      simp only
      cases e : s.lockCall c true a p with
      | mk t nx => rw [e] at k; cases nx <;> simp only [LkSys.setZk, lkUpd_other _ h] <;> exact k
  | land i =>
    simp only [lkStep]
    split
    · rw [exec_objs]
    · rfl
  | expire c =>
    simp only [LkEv.obj] at h
    simp only [lkStep, lkUpd_other _ h]; rfl
  | lock c told =>
    simp only [LkEv.obj] at h
    simp only [lkStep]; (repeat' split) <;> simp only [LkSys.setUser, lkUpd_other _ h]
  | await c told =>
    simp only [LkEv.obj] at h
    simp only [lkStep]; (repeat' split) <;> simp only [LkSys.setUser, lkUpd_other _ h]
  | timeout c =>
    simp only [LkEv.obj] at h
    simp only [lkStep]; (repeat' split) <;> simp only [LkSys.setUser, lkUpd_other _ h]
  | wake c =>
    simp only [LkEv.obj] at h
    simp only [lkStep]; (repeat' split) <;> simp only [LkSys.setUser, lkUpd_other _ h]
  | unlock c told =>
    simp only [LkEv.obj] at h
    simp only [lkStep]; (repeat' split) <;> simp only [LkSys.setUser, lkUpd_other _ h]
  | fire c =>
    simp only [LkEv.obj] at h
    simp only [lkStep]; (repeat' split) <;> simp only [LkSys.setZk, lkUpd_other _ h]

/-! ### What an object leaves behind -/

/-- The only node of an object is the one it knows of. -/
structure LkCore (s : LkSys) (c : Nat) (o : LkObj) : Prop where
  known : ∀ (i : Nat) (v : Nat × List ZNode), o.seen ≤ i → s.views[i]? = some v → ∀ x ∈ v.2,
    o.pre = some x.who → o.id = some x
  mine : ∀ x ∈ s.now, s.pres[x.who]? = some c → o.pre = some x.who
  sent : ∀ k n, ZReq.create c k n ∉ s.flying

/-- What object `c` may do to the rest. -/
structure LkEnv (s t : LkSys) (c : Nat) : Prop where
  views : t.views = s.views ∨ ∃ v, t.views = s.views ++ [v] ∧ ∀ x ∈ v.2, x ∈ s.now ∨ t.pres[x.who]? = some c
  pres : t.pres = s.pres ∨ ∃ e, t.pres = s.pres ++ [e]
  fly : ∀ e k n, ZReq.create e k n ∈ t.flying → ZReq.create e k n ∈ s.flying ∨ (e = c ∧ t.pres[k]? = some c)

/-- Nothing is created. -/
structure LkCut (s t : LkSys) : Prop where
  views : t.views = s.views ∨ ∃ v, t.views = s.views ++ [v] ∧ ∀ x ∈ v.2, x ∈ s.now
  pres : t.pres = s.pres
  fly : ∀ e k n, ZReq.create e k n ∈ t.flying → ZReq.create e k n ∈ s.flying

theorem LkCut.env {s t : LkSys} (h : LkCut s t) (c : Nat) : LkEnv s t c where
  views := h.views.imp id fun ⟨v, e, k⟩ => ⟨v, e, fun x hx => .inl (k x hx)⟩
  pres := .inl h.pres
  fly := fun e k n g => .inl (h.fly e k n g)

theorem LkCut.refl (s : LkSys) : LkCut s s := ⟨.inl rfl, rfl, fun _ _ _ h => h⟩

theorem now_of_push {s t : LkSys} {v : Nat × List ZNode} (h : t.views = s.views ++ [v]) : t.now = v.2 := by
  unfold LkSys.now LkSys.last; rw [h]; simp

theorem now_of_same {s t : LkSys} (h : t.views = s.views) : t.now = s.now := by
  unfold LkSys.now LkSys.last; rw [h]

theorem pres_keep {s t : LkSys} (h : t.pres = s.pres ∨ ∃ e, t.pres = s.pres ++ [e]) {k : Nat}
    (hk : k < s.pres.length) : t.pres[k]? = s.pres[k]? := by
  rcases h with h | ⟨e, h⟩
  · rw [h]
  · rw [h, List.getElem?_append_left hk]

theorem lt_of_pres {l : List Nat} {k c : Nat} (h : l[k]? = some c) : k < l.length := lt_of_view h

/-- Others do not disturb this. -/
theorem LkCore.env {s t : LkSys} {c d : Nat} {o : LkObj} (I : LkInv s) (O : ObjOk s d o) (C : LkCore s d o)
    (E : LkEnv s t c) (h : d ≠ c) : LkCore t d o := by
  have L := LkSys.last_eq I.dir.ne
  have hs := O.seen
  constructor
  · intro i v hi hv x hx hp
    rcases E.views with e | ⟨w, e, k⟩
    · rw [e] at hv; exact C.known i v hi hv x hx hp
    · rw [e, getElem?_push] at hv
      split at hv
      · exact C.known i v hi hv x hx hp
      · split at hv
        · cases hv
          have h1 := O.pre x.who hp
          rcases k x hx with k | k
          · exact C.known (s.views.length - 1) s.last (by omega) L x k hp
          · rw [pres_keep E.pres (lt_of_pres h1), h1] at k
            exact absurd (Option.some.inj k) h
        · cases hv
  · intro x hx hp
    rcases E.views with e | ⟨w, e, k⟩
    · rw [now_of_same e] at hx
      rw [pres_keep E.pres (I.dir.who _ _ L x hx)] at hp
      exact C.mine x hx hp
    · rw [now_of_push e] at hx
      rcases k x hx with k | k
      · rw [pres_keep E.pres (I.dir.who _ _ L x k)] at hp
        exact C.mine x k hp
      · rw [hp] at k; exact absurd (Option.some.inj k) h
  · intro k n hk
    rcases E.fly d k n hk with g | ⟨g, _⟩
    · exact C.sent k n g
    · exact h g

theorem LkCore.cut {s t : LkSys} {d : Nat} {o : LkObj} (I : LkInv s) (O : ObjOk s d o) (C : LkCore s d o)
    (E : LkCut s t) : LkCore t d o := by
  have := LkCore.env (c := d + 1) I O C (E.env (d + 1)) (by omega)
  exact this

/-- The core does not depend on more than this. -/
theorem LkCore.same {s : LkSys} {c : Nat} {o o2 : LkObj} (C : LkCore s c o) (h1 : o2.seen = o.seen) (h2 : o2.id = o.id)
    (h3 : o2.pre = o.pre) : LkCore s c o2 := by
  constructor
  · intro i v hi hv x hx hp
    rw [h1] at hi; rw [h3] at hp; rw [h2]; exact C.known i v hi hv x hx hp
  · intro x hx hp; rw [h3]; exact C.mine x hx hp
  · exact C.sent

theorem LkCore.later {s : LkSys} {c : Nat} {o o2 : LkObj} (C : LkCore s c o) (h1 : o.seen ≤ o2.seen) (h2 : o2.id = o.id)
    (h3 : o2.pre = o.pre) : LkCore s c o2 := by
  constructor
  · intro i v hi hv x hx hp
    rw [h3] at hp; rw [h2]; exact C.known i v (by omega) hv x hx hp
  · intro x hx hp; rw [h3]; exact C.mine x hx hp
  · exact C.sent

/-- A listing says what was known. -/
theorem LkCore.listed {s : LkSys} {c i : Nat} {l : List ZNode} {o : LkObj} (I : LkInv s) (O : ObjOk s c o)
    (C : LkCore s c o) (v : Nat × List ZNode) (hi : o.seen ≤ i) (hv : s.views[i]? = some v) (hl : ∀ x, x ∈ l ↔ x ∈ v.2) :
    LkCore s c { o with seen := i, id := lkLookup o.pre l } := by
  constructor
  · intro j w hj hw x hx hp
    simp only at hj hp ⊢
    have hx' := C.known j w (by omega) hw x hx hp
    obtain ⟨_, a, u, ha, hu, hm⟩ := O.id x hx'
    have hxv : x ∈ v.2 := (I.dir.mono i j v w hj hv hw).2 x hx (by
      have := I.dir.num a u hu x hm
      have := (I.dir.mono a i u v (by omega) hu hv).1
      omega)
    cases e : lkLookup o.pre l with
    | none =>
      unfold lkLookup at e
      rw [List.find?_eq_none] at e
      exact absurd hp (by simpa using e x ((hl x).2 hxv))
    | some y =>
      obtain ⟨h1, h2⟩ := lkLookup_some e
      have := C.known i v hi hv y ((hl y).1 h1) h2
      rw [← hx', this]
  · exact C.mine
  · exact C.sent

/-- A node that is made is the only one. -/
theorem LkCore.made {s t : LkSys} {c k skip : Nat} {o : LkObj} (I : LkInv s) (O : ObjOk s c o) (C : LkCore s c o)
    (none : o.id = none) (hk : o.pre = some k ∨ k = s.pres.length)
    (views : t.views = s.views ++ [(s.next + skip + 1, s.now ++ [⟨s.next + skip, k⟩])])
    (pres : t.pres = s.pres ∨ ∃ e, t.pres = s.pres ++ [e]) (fly : t.flying = s.flying) :
    LkCore t c { o with pre := some k, id := some ⟨s.next + skip, k⟩, seen := s.views.length } := by
  have L := LkSys.last_eq I.dir.ne
  have hs := O.seen
  have no : ∀ x ∈ s.now, o.pre ≠ some x.who := fun x hx hp => by
    have := C.known (s.views.length - 1) s.last (by omega) L x hx hp
    rw [none] at this; cases this
  have no2 : ∀ x ∈ s.now, x.who ≠ k := fun x hx e => by
    rcases hk with hk | hk
    · exact no x hx (e ▸ hk)
    · have := I.dir.who _ _ L x hx; omega
  constructor
  · intro i v hi hv x hx hp
    simp only at hi hp ⊢
    rw [views, getElem?_push, if_neg (by omega)] at hv
    split at hv
    · cases hv
      rcases List.mem_append.1 hx with hx | hx
      · exact absurd (Option.some.inj hp).symm (no2 x hx)
      · rw [List.mem_singleton] at hx; rw [hx]
    · cases hv
  · intro x hx hp
    rw [now_of_push views] at hx
    rcases List.mem_append.1 hx with hx | hx
    · rw [pres_keep pres (I.dir.who _ _ L x hx)] at hp
      exact absurd (C.mine x hx hp) (no x hx)
    · rw [List.mem_singleton] at hx; rw [hx]
  · intro a b; rw [fly]; exact C.sent a b

/-- Once it is removed there is none. -/
theorem LkCore.removed {s t : LkSys} {c : Nat} {o : LkObj} {n : ZNode} (I : LkInv s) (O : ObjOk s c o) (C : LkCore s c o)
    (hn : o.id = some n) (views : t.views = s.views ++ [(s.next, s.now.filter fun x => x ≠ n)])
    (pres : t.pres = s.pres) (fly : t.flying = s.flying) : LkCore t c o.reset := by
  have L := LkSys.last_eq I.dir.ne
  have hs := O.seen
  constructor
  · intro i v hi hv x hx hp; cases hp
  · intro x hx hp
    rw [now_of_push views] at hx
    rw [pres] at hp
    obtain ⟨h1, h2⟩ := List.mem_filter.1 hx
    have := C.known (s.views.length - 1) s.last (by omega) L x h1 (C.mine x h1 hp)
    rw [hn] at this
    exact absurd (Option.some.inj this).symm (by simpa using h2)
  · intro a b; rw [fly]; exact C.sent a b

/-! ### Calls -/

theorem upd_cut (s : LkSys) (c : Nat) (f : LkObj → LkObj) : LkCut s (s.upd c f) := ⟨.inl rfl, rfl, fun _ _ _ h => h⟩

theorem cut_upd {s t : LkSys} (h : LkCut s t) (c : Nat) (f : LkObj → LkObj) : LkCut s (t.upd c f) :=
  ⟨h.views, h.pres, h.fly⟩

theorem env_upd {s t : LkSys} {d : Nat} (h : LkEnv s t d) (c : Nat) (f : LkObj → LkObj) : LkEnv s (t.upd c f) d :=
  ⟨h.views, h.pres, h.fly⟩

theorem unlock_cut (s : LkSys) (c : Nat) (a : ZAns) : LkCut s (s.unlockCall c a).1 := by
  unfold LkSys.unlockCall
  split
  · exact .refl s
  · split
    · split
      · exact ⟨.inr ⟨_, rfl, fun x hx => (List.mem_filter.1 hx).1⟩, rfl, fun _ _ _ h => h⟩
      · exact .refl s
    · simp only [LkSys.lose]
      split
      · exact ⟨.inr ⟨_, rfl, fun x hx => (List.mem_filter.1 hx).1⟩, rfl, fun _ _ _ h => h⟩
      · refine ⟨.inl rfl, rfl, fun e k n h => ?_⟩
        rcases List.mem_append.1 h with h | h
        · exact h
        · rw [List.mem_singleton] at h; cases h
    · exact .refl s

theorem unlock_core {s : LkSys} {c : Nat} {a : ZAns} (I : LkInv s) (C : LkCore s c (s.objs c)) :
    LkCore (s.unlockCall c a).1 c ((s.unlockCall c a).1.objs c) ∧
    ((s.unlockCall c a).2 = true → ((s.unlockCall c a).1.objs c).id = none) ∧
    ((s.objs c).id = none → ((s.unlockCall c a).1.objs c).id = none) := by
  have O := I.obj c
  have cut := unlock_cut s c a
  unfold LkSys.unlockCall at cut ⊢
  split
  · rename_i h; exact ⟨C, fun _ => h, fun _ => h⟩
  · rename_i n hn
    split
    · split
      · rw [lkUpd_self, exec_objs]
        refine ⟨?_, fun _ => rfl, fun _ => rfl⟩
        exact LkCore.removed I O C hn rfl rfl rfl
      · exact ⟨C, (fun h => by cases h), fun h => h⟩
    · simp only [hn] at cut
      simp only [lose_objs]
      exact ⟨C.cut I O cut, (fun h => by cases h), fun h => h⟩
    · exact ⟨C, (fun h => by cases h), fun h => h⟩

theorem lkDecide_cut (s : LkSys) (c : Nat) (v : List ZNode) : LkCut s (lkDecide s c v).1 := by
  unfold lkDecide; (repeat' split) <;> first | exact .refl s | exact ⟨.inl rfl, rfl, fun _ _ _ h => h⟩

theorem lkDecide_obj (s : LkSys) (c : Nat) (v : List ZNode) :
    ((lkDecide s c v).1.objs c).id = (s.objs c).id ∧ ((lkDecide s c v).1.objs c).seen = (s.objs c).seen ∧
    ((lkDecide s c v).1.objs c).pre = (s.objs c).pre ∧ ((lkDecide s c v).1.objs c).garbage = (s.objs c).garbage ∧
    ∀ l, (lkDecide s c v).2 ≠ .go (.make l) := by
  unfold lkDecide; (repeat' split) <;> simp [lkUpd_self]

theorem draw_pres (s : LkSys) (c : Nat) :
    ((lkDraw s c).pres = s.pres ∨ ∃ e, (lkDraw s c).pres = s.pres ++ [e]) ∧ (lkDraw s c).views = s.views ∧
    (lkDraw s c).flying = s.flying := by
  unfold lkDraw; split
  · exact ⟨.inl rfl, rfl, rfl⟩
  · exact ⟨.inr ⟨c, rfl⟩, rfl, rfl⟩

theorem draw_mine {s : LkSys} {c : Nat} (O : ObjOk s c (s.objs c)) :
    (lkDraw s c).pres[(s.objs c).pre.getD s.pres.length]? = some c := by
  unfold lkDraw
  cases h : (s.objs c).pre with
  | some k => simp only [Option.isSome_some, if_true, Option.getD_some]; exact O.pre k h
  | none => simp

/-- What a call does to the rest. -/
theorem lockCall_env {s : LkSys} {c : Nat} {again : Bool} {a : ZAns} {p : LkAt} (I : LkInv s) :
    LkEnv s (s.lockCall c again a p).1 c := by
  cases p with
  | parent r =>
    refine LkCut.env ?_ c
    cases a <;> simp only [LkSys.lockCall] <;> (repeat' split) <;> exact .refl s
  | mkParent r =>
    refine LkCut.env ?_ c
    cases a <;> simp only [LkSys.lockCall] <;> (repeat' split) <;>
      first | exact .refl s | exact ⟨.inl rfl, rfl, fun _ _ _ h => h⟩
  | list1 r =>
    refine LkCut.env ?_ c
    cases a <;> simp only [LkSys.lockCall] <;> (repeat' split) <;> first | exact .refl s | exact ⟨.inl rfl, rfl, fun _ _ _ h => h⟩
  | make old =>
    obtain ⟨h1, h2, h3⟩ := draw_pres s c
    have h4 := draw_mine (I.obj c)
    rw [lockCall_make]
    cases a with
    | ok skip l =>
      simp only
      split
      · dsimp only
        refine env_upd ?_ c _
        simp only [LkSys.exec]
        split
        · refine ⟨.inr ⟨_, congrArg (· ++ _) h2, fun x hx => ?_⟩, h1, fun e k n g => .inl (h3 ▸ g)⟩
          rcases List.mem_append.1 hx with hx | hx
          · rw [now_of_same h2] at hx; exact .inl hx
          · rw [List.mem_singleton] at hx; subst hx; exact .inr h4
        · exact ⟨.inl h2, h1, fun e k n g => .inl (h3 ▸ g)⟩
      · exact (LkCut.refl s).env c
    | lost done =>
      dsimp only
      refine env_upd ?_ c _
      simp only [LkSys.lose]
      split
      · simp only [LkSys.exec]
        split
        · refine ⟨.inr ⟨_, congrArg (· ++ _) h2, fun x hx => ?_⟩, h1, fun e k n g => .inl (h3 ▸ g)⟩
          rcases List.mem_append.1 hx with hx | hx
          · rw [now_of_same h2] at hx; exact .inl hx
          · rw [List.mem_singleton] at hx; subst hx; exact .inr h4
        · exact ⟨.inl h2, h1, fun e k n g => .inl (h3 ▸ g)⟩
      · refine ⟨.inl h2, h1, fun e k n g => ?_⟩
        rcases List.mem_append.1 g with g | g
        · exact .inl (h3 ▸ g)
        · rw [List.mem_singleton] at g; cases g; exact .inr ⟨rfl, h4⟩
    | fail => refine LkCut.env ?_ c; exact ⟨.inl rfl, rfl, fun _ _ _ h => h⟩
  | list2 r old =>
    refine LkCut.env ?_ c
    cases a with
    | ok i l =>
      simp only [LkSys.lockCall]
      split
      · have h := lkDecide_cut (s.upd c fun o => { o with seen := i }) c (if l = [] then old else l)
        exact ⟨h.views, h.pres, h.fly⟩
      · exact .refl s
    | lost b => simp only [LkSys.lockCall]; split <;> exact .refl s
    | fail => exact .refl s
  | own => refine LkCut.env ?_ c; exact ⟨.inl rfl, rfl, fun _ _ _ h => h⟩
  | lose => refine LkCut.env ?_ c; exact ⟨.inl rfl, rfl, fun _ _ _ h => h⟩
  | watch q r =>
    refine LkCut.env ?_ c
    cases a <;> simp only [LkSys.lockCall] <;> (repeat' split) <;> first | exact .refl s | exact ⟨.inl rfl, rfl, fun _ _ _ h => h⟩
  | giveUp =>
    refine LkCut.env ?_ c
    have h := unlock_cut s c a
    unfold LkSys.lockCall
    cases e : s.unlockCall c a with
    | mk t b => rw [e] at h; cases b <;> exact h

/-- What a call does to its own object. -/
theorem lockCall_core {s : LkSys} {c : Nat} {again : Bool} {a : ZAns} {p : LkAt} (I : LkInv s)
    (C : LkCore s c (s.objs c)) (hm : ∀ l, p = .make l → (s.objs c).id = none)
    (clean : ((s.lockCall c again a p).1.objs c).garbage = false) :
    LkCore (s.lockCall c again a p).1 c ((s.lockCall c again a p).1.objs c) ∧
    (∀ l, (s.lockCall c again a p).2 = .go (.make l) → ((s.lockCall c again a p).1.objs c).id = none) := by
  have O := I.obj c
  cases p with
  | parent r =>
    have hb : ∀ (o : LkObj) l, lkBegin again o ≠ .go (.make l) := fun o l => by
      unfold lkBegin; split <;> simp
    cases a <;> simp only [LkSys.lockCall] <;> (repeat' split) <;>
      exact ⟨C, fun l h => by first | exact absurd h (hb _ l) | cases h⟩
  | mkParent r =>
    have hb : ∀ (o : LkObj) l, lkBegin again o ≠ .go (.make l) := fun o l => by
      unfold lkBegin; split <;> simp
    have C2 : ∀ d : Bool, LkCore { s with dir := d } c (s.objs c) := fun d => ⟨C.known, C.mine, C.sent⟩
    cases a <;> simp only [LkSys.lockCall] <;> (repeat' split) <;>
      exact ⟨by first | exact C | exact C2 _, fun l h => by first | exact absurd h (hb _ l) | cases h⟩
  | list1 r =>
    cases a with
    | ok i l =>
      simp only [LkSys.lockCall]
      split
      · rename_i hs
        obtain ⟨_, hi, v, hv, hl⟩ := LkSys.shows_iff hs
        simp only [lkUpd_self]
        refine ⟨?_, fun l2 h => ?_⟩
        · have k := LkCore.listed I O C v hi hv hl
          exact ⟨k.known, k.mine, k.sent⟩
        · split at h
          · cases h
          · rename_i g; simpa using g
      · exact ⟨C, fun l h => by cases h⟩
    | lost b => simp only [LkSys.lockCall]; split <;> exact ⟨C, fun l h => by cases h⟩
    | fail => exact ⟨C, fun l h => by cases h⟩
  | make old =>
    rw [lockCall_make] at clean ⊢
    cases a with
    | ok skip l =>
      simp only at clean ⊢
      split
      · rename_i ha
        obtain ⟨h1, h2, h3⟩ := draw_pres s c
        rw [lkUpd_self, exec_objs]
        refine ⟨?_, fun l h => by cases h⟩
        have hpre : ((lkDraw s c).objs c).pre = some ((s.objs c).pre.getD s.pres.length) := by
          unfold lkDraw
          cases h : (s.objs c).pre with
          | some k => simp [h]
          | none => simp [lkUpd_self]
        have hal : ((lkDraw s c).objs c).alive = true := by rw [(lkDraw_keeps s c c).2.2.1]; exact ha
        have := LkCore.made (t := ((lkDraw s c).exec (.create c ((s.objs c).pre.getD s.pres.length) skip)))
          (k := (s.objs c).pre.getD s.pres.length) (skip := skip) I O C (hm old rfl)
          (by cases h : (s.objs c).pre with
              | some k => exact .inl rfl
              | none => exact .inr rfl)
          (by simp only [LkSys.exec, hal, if_true, LkSys.push, h2, LkSys.next, LkSys.now, LkSys.last])
          (by simp only [LkSys.exec, hal, if_true, LkSys.push]; exact h1)
          (by simp only [LkSys.exec, hal, if_true, LkSys.push]; exact h3)
        have := this.same (o2 := { (lkDraw s c).objs c with
            id := some ⟨s.next + skip, (s.objs c).pre.getD s.pres.length⟩, seen := s.views.length }) rfl rfl hpre
        exact ⟨this.known, this.mine, this.sent⟩
      · exact ⟨C, fun l h => hm old rfl⟩
    | lost done => simp only [lkUpd_self] at clean; cases clean
    | fail => simp only [lkUpd_self] at clean; cases clean
  | list2 r old =>
    cases a with
    | ok i l =>
      simp only [LkSys.lockCall]
      split
      · rename_i hs
        obtain ⟨_, hi, v, hv, hl⟩ := LkSys.shows_iff hs
        obtain ⟨g1, g2, g3, _, g5⟩ := lkDecide_obj (s.upd c fun o => { o with seen := i }) c (if l = [] then old else l)
        have cut := lkDecide_cut (s.upd c fun o => { o with seen := i }) c (if l = [] then old else l)
        rw [lkUpd_self] at g1 g2 g3
        refine ⟨?_, fun l2 h => absurd h (g5 l2)⟩
        have c1 := (C.cut I O (t := (lkDecide (s.upd c fun o => { o with seen := i }) c (if l = [] then old else l)).1)
          ⟨cut.views, cut.pres, cut.fly⟩)
        exact c1.later (by rw [g2]; exact hi) g1 g3
      · exact ⟨C, fun l h => by cases h⟩
    | lost b => simp only [LkSys.lockCall]; split <;> exact ⟨C, fun l h => by cases h⟩
    | fail => exact ⟨C, fun l h => by cases h⟩
  | own =>
    refine ⟨?_, fun l h => by cases h⟩
    simp only [LkSys.lockCall, lkUpd_self]
    exact (C.cut I O (upd_cut s c _)).same rfl rfl rfl
  | lose =>
    refine ⟨?_, fun l h => by cases h⟩
    simp only [LkSys.lockCall, lkUpd_self]
    exact (C.cut I O (upd_cut s c _)).same rfl rfl rfl
  | watch q r =>
    cases a with
    | ok i l =>
      simp only [LkSys.lockCall]
      split
      · rename_i hs
        obtain ⟨_, hi, v, hv, hl⟩ := LkSys.shows_iff hs
        refine ⟨?_, fun l h => by split at h <;> cases h⟩
        rw [lkUpd_self]
        exact (C.cut I O (upd_cut s c fun o => { o with seen := i })).later (o2 := { s.objs c with seen := i }) hi rfl rfl
      · exact ⟨C, fun l h => by cases h⟩
    | lost b => simp only [LkSys.lockCall]; split <;> exact ⟨C, fun l h => by cases h⟩
    | fail => exact ⟨C, fun l h => by cases h⟩
  | giveUp =>
    have h := (unlock_core (a := a) I C).1
    unfold LkSys.lockCall
    cases e : s.unlockCall c a with
    | mk t b => rw [e] at h; cases b <;> exact ⟨h, fun l h => by cases h⟩

/-- A call that is made again while the object has no node does not make one. -/
theorem lockCall_idle {s : LkSys} {c : Nat} {a : ZAns} {p : LkAt} (hid : (s.objs c).id = none)
    (hp : (∃ r, p = .parent r) ∨ ∃ r, p = .mkParent r) :
    ((s.lockCall c true a p).1.objs c).id = none ∧
    ∀ q, (s.lockCall c true a p).2 = .go q → (∃ r, q = .parent r) ∨ ∃ r, q = .mkParent r := by
  have hb : lkBegin true (s.objs c) = .ret true := by simp [lkBegin, hid]
  rcases hp with ⟨r, rfl⟩ | ⟨r, rfl⟩
  · cases a <;> simp only [LkSys.lockCall, hb] <;> (repeat' split) <;>
      exact ⟨hid, fun q h => by first | (cases h; exact .inl ⟨_, rfl⟩) | (cases h; exact .inr ⟨_, rfl⟩) | cases h⟩
  · cases a <;> simp only [LkSys.lockCall, hb] <;> (repeat' split) <;>
      exact ⟨hid, fun q h => by first | (cases h; exact .inl ⟨_, rfl⟩) | (cases h; exact .inr ⟨_, rfl⟩) | cases h⟩

/-! ### Steps -/

/-- What holds of an object that has not lost the answer to a creation. -/
structure LkTidy (s : LkSys) (c : Nat) (o : LkObj) : Prop where
  core : LkCore s c o
  make : ∀ l, o.pos = some (.make l) → o.id = none
  out : o.user = .out → o.id = none ∧ ∀ q, o.zk = some q → (∃ r, q = .parent r) ∨ ∃ r, q = .mkParent r

structure TidyInv (s : LkSys) : Prop where
  obj : ∀ c, (s.objs c).garbage = false → LkTidy s c (s.objs c)
  fly : ∀ e k n, ZReq.create e k n ∈ s.flying → s.pres[k]? = some e

theorem lockCall_garbage (s : LkSys) (c : Nat) (again : Bool) (a : ZAns) (p : LkAt) (h : (s.objs c).garbage = true) :
    ((s.lockCall c again a p).1.objs c).garbage = true := by
  cases p with
  | parent r => cases a <;> simp only [LkSys.lockCall] <;> (repeat' split) <;> exact h
  | mkParent r => cases a <;> simp only [LkSys.lockCall] <;> (repeat' split) <;> exact h
  | list1 r =>
    cases a <;> simp only [LkSys.lockCall] <;> (repeat' split) <;> first | exact h | (simp only [lkUpd_self]; exact h)
  | make old =>
    rw [lockCall_make]
    cases a with
    | ok i l =>
      simp only
      split
      · simp only [lkUpd_self, exec_objs]
        unfold lkDraw; split
        · exact h
        · simp only [lkUpd_self]; exact h
      · exact h
    | lost b => simp only [lkUpd_self]
    | fail => simp only [lkUpd_self]
  | list2 r old =>
    cases a with
    | ok i l =>
      simp only [LkSys.lockCall]
      split
      · rw [(lkDecide_obj _ c _).2.2.2.1, lkUpd_self]; exact h
      · exact h
    | lost b => simp only [LkSys.lockCall]; split <;> exact h
    | fail => exact h
  | own => simp only [LkSys.lockCall, lkUpd_self]; exact h
  | lose => simp only [LkSys.lockCall, lkUpd_self]; exact h
  | watch q r =>
    cases a <;> simp only [LkSys.lockCall] <;> (repeat' split) <;> first | exact h | (simp only [lkUpd_self]; exact h)
  | giveUp =>
    have k : ((s.unlockCall c a).1.objs c).garbage = (s.objs c).garbage := by
      unfold LkSys.unlockCall
      (repeat' split) <;> simp [lkUpd_self, exec_objs, lose_objs, LkObj.reset]
    unfold LkSys.lockCall
    cases e : s.unlockCall c a with
    | mk t b => rw [e] at k; cases b <;> (simp only; rw [k]; exact h)

theorem unlock_garbage (s : LkSys) (c : Nat) (a : ZAns) :
    ((s.unlockCall c a).1.objs c).garbage = (s.objs c).garbage := by
  unfold LkSys.unlockCall
  (repeat' split) <;> simp [lkUpd_self, exec_objs, lose_objs, LkObj.reset]

theorem fly_env {s t : LkSys} {c : Nat} (E : LkEnv s t c)
    (h : ∀ e k n, ZReq.create e k n ∈ s.flying → s.pres[k]? = some e) :
    ∀ e k n, ZReq.create e k n ∈ t.flying → t.pres[k]? = some e := by
  intro e k n g
  rcases E.fly e k n g with g | ⟨rfl, g⟩
  · have := h e k n g
    rw [pres_keep E.pres (lt_of_pres this)]; exact this
  · exact g

/-- A step of one object that does this to the rest. -/
theorem TidyInv.step {s t : LkSys} {c : Nat} (I : LkInv s) (T : TidyInv s) (E : LkEnv s t c)
    (other : ∀ d, d ≠ c → t.objs d = s.objs d)
    (own : (t.objs c).garbage = false → LkTidy t c (t.objs c)) : TidyInv t where
  obj := fun d hd => by
    by_cases h : d = c
    · subst h; exact own hd
    · rw [other d h] at hd ⊢
      have k := T.obj d hd
      exact ⟨k.core.env I (I.obj d) E h, k.make, k.out⟩
  fly := fly_env E T.fly

/-- A step that only moves the threads of an object. -/
theorem TidyInv.phase {s : LkSys} {c : Nat} (I : LkInv s) (T : TidyInv s) (f : LkObj → LkObj)
    (same : (f (s.objs c)).seen = (s.objs c).seen ∧ (f (s.objs c)).id = (s.objs c).id ∧
      (f (s.objs c)).pre = (s.objs c).pre ∧ (f (s.objs c)).garbage = (s.objs c).garbage)
    (make : ∀ l, (f (s.objs c)).pos = some (.make l) → (s.objs c).pos = some (.make l))
    (out : (f (s.objs c)).user = .out → (s.objs c).user = .out ∧
      ∀ q, (f (s.objs c)).zk = some q → (s.objs c).zk = some q ∨ (∃ r, q = .parent r)) : TidyInv (s.upd c f) := by
  refine TidyInv.step (c := c) I T ((upd_cut s c f).env c) (fun d h => lkUpd_other s h f) ?_
  rw [lkUpd_self]
  intro hg
  rw [same.2.2.2] at hg
  have k := T.obj c hg
  refine ⟨(k.core.cut I (I.obj c) (upd_cut s c f)).same same.1 same.2.1 same.2.2.1, ?_, ?_⟩
  · intro l h; rw [same.2.1]; exact k.make l (make l h)
  · intro h
    obtain ⟨h1, h2⟩ := out h
    obtain ⟨h3, h4⟩ := k.out h1
    refine ⟨by rw [same.2.1]; exact h3, fun q hq => ?_⟩
    rcases h2 q hq with g | g
    · exact h4 q g
    · exact .inl g

theorem lkUpd_upd (s : LkSys) (c : Nat) (f g : LkObj → LkObj) : (s.upd c f).upd c g = s.upd c (fun o => g (f o)) := by
  unfold LkSys.upd
  congr 1
  funext d
  by_cases h : d = c
  · simp [h]
  · simp [h]

/-- A call, and what its thread does next. -/
theorem TidyInv.call {s t : LkSys} {c : Nat} {again : Bool} {a : ZAns} {p : LkAt} {nx : LkNext} (I : LkInv s)
    (T : TidyInv s) (e : s.lockCall c again a p = (t, nx)) (hp : (s.objs c).pos = some p) (f : LkObj → LkObj)
    (same : (f (t.objs c)).seen = (t.objs c).seen ∧ (f (t.objs c)).id = (t.objs c).id ∧
      (f (t.objs c)).pre = (t.objs c).pre ∧ (f (t.objs c)).garbage = (t.objs c).garbage)
    (make : ∀ l, (f (t.objs c)).pos = some (.make l) → nx = .go (.make l))
    (out : LkTidy s c (s.objs c) → (f (t.objs c)).user = .out → (t.objs c).id = none ∧
      ∀ q, (f (t.objs c)).zk = some q → (∃ r, q = .parent r) ∨ ∃ r, q = .mkParent r) : TidyInv (t.upd c f) := by
  have E := lockCall_env (c := c) (again := again) (a := a) (p := p) I
  have K := fun h1 h2 => lockCall_core (c := c) (again := again) (a := a) (p := p) I h1 h2
  have G := lockCall_garbage s c again a p
  have X := lockCall_other s c again a p
  rw [e] at E K G X
  simp only at E K G X
  refine TidyInv.step (c := c) I T (env_upd E c f) (fun d h => by rw [lkUpd_other t h]; exact X d h) ?_
  rw [lkUpd_self]
  intro hg
  rw [same.2.2.2] at hg
  have hg0 : (s.objs c).garbage = false := by
    cases h : (s.objs c).garbage with
    | false => rfl
    | true => rw [G h] at hg; cases hg
  have k := T.obj c hg0
  obtain ⟨k1, k2⟩ := K k.core (fun l h => k.make l (h ▸ hp)) hg
  refine ⟨?_, ?_, ?_⟩
  · have := k1.same same.1 same.2.1 same.2.2.1
    exact ⟨this.known, this.mine, this.sent⟩
  · intro l h; rw [same.2.1]; exact k2 l (make l h)
  · intro h
    rw [same.2.1]
    exact out k h

theorem tidyStep {s : LkSys} (I : LkInv s) (mx : s.mutex) (ap : ∀ c, s.apart c) (T : TidyInv s) (ev : LkEv) :
    TidyInv (lkStep s ev) := by
  cases ev with
  | lock c told =>
    simp only [lkStep]
    split
    · rename_i hu hz
      split
      · exact T.phase I (fun o => { o with user := .failed }) ⟨rfl, rfl, rfl, rfl⟩
          (fun l h => by simp only [LkObj.pos, hu, hz] at h ⊢; cases h) (fun h => by cases h)
      · exact T.phase I (fun o => { o with user := .locking (.parent 10) }) ⟨rfl, rfl, rfl, rfl⟩
          (fun l h => by simp only [LkObj.pos] at h; cases h) (fun h => by cases h)
    · exact T
  | await c told =>
    simp only [lkStep]
    split
    · rename_i hu
      split
      · exact T.phase I (fun o => { o with user := .failed }) ⟨rfl, rfl, rfl, rfl⟩
          (fun l h => by simp only [LkObj.pos, hu] at h ⊢; exact h) (fun h => by cases h)
      · exact T.phase I (fun o => { o with user := .waiting, ret := true }) ⟨rfl, rfl, rfl, rfl⟩
          (fun l h => by simp only [LkObj.pos, hu] at h ⊢; exact h) (fun h => by cases h)
    · exact T
  | timeout c =>
    simp only [lkStep]
    split
    · exact T.phase I (fun o => { o with user := .checking (.parent 10) }) ⟨rfl, rfl, rfl, rfl⟩
          (fun l h => by simp only [LkObj.pos] at h; cases h) (fun h => by cases h)
    · exact T
  | wake c =>
    simp only [lkStep]
    split
    · rename_i hu _
      exact T.phase I (fun o => { o with user := if (s.objs c).ret then .inside else .failed }) ⟨rfl, rfl, rfl, rfl⟩
          (fun l h => by
            simp only [LkObj.pos, hu] at h ⊢
            cases hr : (s.objs c).ret <;> (rw [hr] at h; exact h))
          (fun h => by
            simp only at h
            cases hr : (s.objs c).ret <;> (rw [hr] at h; cases h))
    · exact T
  | unlock c told =>
    simp only [lkStep]
    split
    · rename_i hu hz
      split
      · exact T.phase I (fun o => { o with user := .failed }) ⟨rfl, rfl, rfl, rfl⟩
          (fun l h => by simp only [LkObj.pos, hu] at h ⊢; exact h) (fun h => by cases h)
      · exact T.phase I (fun o => { o with user := .unlocking }) ⟨rfl, rfl, rfl, rfl⟩
          (fun l h => by simp only [LkObj.pos, hu] at h ⊢; exact h) (fun h => by cases h)
    · exact T
  | fire c =>
    simp only [lkStep]
    split
    · rename_i hz hl
      exact T.phase I (fun o => { o with zk := some (.parent 10) }) ⟨rfl, rfl, rfl, rfl⟩
          (fun l h => by
            simp only [LkObj.pos] at h ⊢
            cases hu : (s.objs c).user <;> rw [hu] at h <;> first | exact h | cases h)
          (fun h => ⟨h, fun q hq => .inr ⟨10, by cases hq; rfl⟩⟩)
    · exact T
  | user c a =>
    simp only [lkStep, LkSys.userStep]
    cases hu : (s.objs c).user with
    | locking p =>
      have hz : (s.objs c).zk = none := mx c (by rw [hu]; rfl)
      have hp : (s.objs c).pos = some p := by simp only [LkObj.pos, hu]
      have Z := (lockCall_keeps s c false a p c).1
      simp only
      cases e : s.lockCall c false a p with
      | mk t nx =>
        rw [e] at Z
        simp only at Z
        rw [hz] at Z
        cases nx with
        | go q =>
          exact T.call I e hp (fun o => { o with user := .locking q }) ⟨rfl, rfl, rfl, rfl⟩
            (fun l h => by simp only [LkObj.pos] at h; cases h; rfl) (fun _ h => by cases h)
        | ret b =>
          cases b with
          | true =>
            exact T.call I e hp (fun o => { o with user := .locked }) ⟨rfl, rfl, rfl, rfl⟩
              (fun l h => by simp only [LkObj.pos, Z] at h; cases h) (fun _ h => by cases h)
          | false =>
            exact T.call I e hp (fun o => { o with user := .failed }) ⟨rfl, rfl, rfl, rfl⟩
              (fun l h => by simp only [LkObj.pos, Z] at h; cases h) (fun _ h => by cases h)
    | checking p =>
      have hz : (s.objs c).zk = none := by
        have := ap c
        unfold LkSys.apart at this
        rw [hu] at this
        cases h : (s.objs c).zk with
        | none => rfl
        | some q => rw [h] at this; exact False.elim this
      have hp : (s.objs c).pos = some p := by simp only [LkObj.pos, hu]
      have Z := (lockCall_keeps s c false a p c).1
      simp only
      cases e : s.lockCall c false a p with
      | mk t nx =>
        rw [e] at Z
        simp only at Z
        rw [hz] at Z
        cases nx with
        | go q =>
          exact T.call I e hp (fun o => { o with user := .checking q }) ⟨rfl, rfl, rfl, rfl⟩
            (fun l h => by simp only [LkObj.pos] at h; cases h; rfl) (fun _ h => by cases h)
        | ret b =>
          simp only [LkSys.setUser, lkUpd_upd]
          exact T.call I e hp (fun o => { o with user := .waiting, ret := b }) ⟨rfl, rfl, rfl, rfl⟩
              (fun l h => by simp only [LkObj.pos, Z] at h; cases h) (fun _ h => by cases h)
    | unlocking =>
      have hz : (s.objs c).zk = none := mx c (by rw [hu]; rfl)
      have cut := unlock_cut s c a
      have X := unlockCall_other s c a
      have K := fun h => unlock_core (a := a) (c := c) I h
      have Z := unlockCall_zk s c a c
      have G := unlock_garbage s c a
      simp only
      cases e : s.unlockCall c a with
      | mk t b =>
        rw [e] at cut X K Z G
        simp only at cut X K Z G
        rw [hz] at Z
        cases b with
        | true =>
          refine TidyInv.step (c := c) I T ((cut_upd cut c _).env c)
            (fun d h => by simp only [LkSys.setUser, lkUpd_other t h]; exact X d h) ?_
          simp only [LkSys.setUser, lkUpd_self]
          intro hg
          rw [G] at hg
          obtain ⟨k1, k2, _⟩ := K (T.obj c hg).core
          have k3 := k1.same (o2 := { t.objs c with user := .out }) rfl rfl rfl
          refine ⟨⟨k3.known, k3.mine, k3.sent⟩, fun l _ => k2 rfl, fun _ => ⟨k2 rfl, fun q hq => ?_⟩⟩
          simp only [Z.1] at hq; cases hq
        | false =>
          refine TidyInv.step (c := c) I T (cut.env c) X ?_
          intro hg
          rw [G] at hg
          obtain ⟨k1, _, _⟩ := K (T.obj c hg).core
          refine ⟨k1, fun l h => ?_, fun h => ?_⟩
          · simp only [LkObj.pos, Z, hu] at h; cases h
          · rw [Z.2.1, hu] at h; cases h
    | out => exact T
    | locked => exact T
    | waiting => exact T
    | inside => exact T
    | failed => exact T
  | zk c a =>
    simp only [lkStep, LkSys.zkStep]
    cases hz : (s.objs c).zk with
    | none => exact T
    | some p =>
      have hp : (s.objs c).pos = some p := by
        have h1 := ap c
        have h2 := mx c
        unfold LkSys.apart at h1
        rw [hz] at h1 h2
        unfold LkObj.pos
        cases hu : (s.objs c).user with
        | locking q => rw [hu] at h2; cases h2 rfl
        | checking q => rw [hu] at h1; exact False.elim h1
        | out => exact hz
        | locked => exact hz
        | waiting => exact hz
        | inside => exact hz
        | unlocking => exact hz
        | failed => exact hz
      have Z := (lockCall_keeps s c true a p c)
      simp only
      cases e : s.lockCall c true a p with
      | mk t nx =>
        rw [e] at Z
        simp only at Z
        have hpos : ∀ z, ({ t.objs c with zk := z } : LkObj).pos = z := by
          intro z
          unfold LkObj.pos at hp ⊢
          have h1 := ap c
          have h2 := mx c
          unfold LkSys.apart at h1
          rw [hz] at h1 h2
          simp only [Z.2.1]
          cases hu : (s.objs c).user with
          | locking q => rw [hu] at h2; cases h2 rfl
          | checking q => rw [hu] at h1; exact False.elim h1
          | out => rfl
          | locked => rfl
          | waiting => rfl
          | inside => rfl
          | unlocking => rfl
          | failed => rfl
        have idle : LkTidy s c (s.objs c) → (t.objs c).user = .out → (t.objs c).id = none ∧
            ∀ q, nx = .go q → (∃ r, q = .parent r) ∨ ∃ r, q = .mkParent r := by
          intro k h
          rw [Z.2.1] at h
          obtain ⟨h1, h2⟩ := k.out h
          have := lockCall_idle (a := a) h1 (h2 p hz)
          rw [e] at this
          exact this
        cases nx with
        | go q =>
          exact T.call I e hp (fun o => { o with zk := some q }) ⟨rfl, rfl, rfl, rfl⟩
            (fun l h => by rw [hpos] at h; cases h; rfl)
            (fun k h => by
              obtain ⟨h1, h2⟩ := idle k h
              exact ⟨h1, fun q2 hq => by cases hq; exact h2 q rfl⟩)
        | ret b =>
          exact T.call I e hp (fun o => { o with zk := none }) ⟨rfl, rfl, rfl, rfl⟩
            (fun l h => by rw [hpos] at h; cases h)
            (fun k h => ⟨(idle k h).1, fun q2 hq => by cases hq⟩)
  | land i =>
    simp only [lkStep]
    split
    · rename_i q hq
      have hmem : q ∈ s.flying := List.mem_of_getElem? hq
      have sub : ∀ x ∈ s.flying.eraseIdx i, x ∈ s.flying := fun x hx => List.mem_of_mem_eraseIdx hx
      cases q with
      | delete n =>
        have cut : LkCut s ({ s with flying := s.flying.eraseIdx i }.exec (.delete n)) :=
          ⟨.inr ⟨_, rfl, fun x hx => (List.mem_filter.1 hx).1⟩, rfl, fun _ _ _ h => sub _ h⟩
        exact ⟨fun d hd => by
          have k := T.obj d hd
          exact ⟨k.core.cut I (I.obj d) cut, k.make, k.out⟩, fly_env (cut.env 0) T.fly⟩
      | create c k n =>
        have E : LkEnv s ({ s with flying := s.flying.eraseIdx i }.exec (.create c k n)) c := by
          simp only [LkSys.exec]
          split
          · refine ⟨.inr ⟨_, rfl, fun x hx => ?_⟩, .inl rfl, fun _ _ _ h => .inl (sub _ h)⟩
            rcases List.mem_append.1 hx with hx | hx
            · exact .inl hx
            · rw [List.mem_singleton] at hx; subst hx; exact .inr (T.fly c k n hmem)
          · exact ⟨.inl rfl, .inl rfl, fun _ _ _ h => .inl (sub _ h)⟩
        refine TidyInv.step (c := c) I T E (fun d _ => by rw [exec_objs]) ?_
        rw [exec_objs]
        intro hg
        exact absurd hmem ((T.obj c hg).core.sent k n)
    · exact T
  | expire c =>
    simp only [lkStep]
    have cut : LkCut s ((s.push (s.next, s.now.filter fun x => s.pres[x.who]? ≠ some c)).upd c
        fun o => { o with alive := false }) :=
      ⟨.inr ⟨_, rfl, fun x hx => (List.mem_filter.1 hx).1⟩, rfl, fun _ _ _ h => h⟩
    refine TidyInv.step (c := c) I T (cut.env c) (fun d h => by rw [lkUpd_other _ h]; rfl) ?_
    rw [lkUpd_self]
    intro hg
    have k := T.obj c hg
    exact ⟨(k.core.cut I (I.obj c) cut).same rfl rfl rfl, k.make, k.out⟩

theorem tidyRun (s : LkSys) (evs : List LkEv) (I : LkInv s) (mx : s.mutex) (ap : ∀ c, s.apart c) (T : TidyInv s)
    (apart : Apart s evs) (small : (lkRun s evs).next ≤ 2 ^ 31) : TidyInv (lkRun s evs) := by
  induction evs generalizing s with
  | nil => exact T
  | cons e l ih =>
    have h0 : s.next ≤ 2 ^ 31 := Nat.le_trans (lkRun_next s (e :: l)) small
    have a1 := lkStep_apart ap e apart.1
    exact ih (lkStep s e) (lkStep_ok I mx ap h0 e a1) (lkStep_mutex mx e) a1 (tidyStep I mx ap T e) apart.2 small

theorem tidyStart (d : Bool) (evs : List LkEv) (apart : Apart { dir := d } evs)
    (small : (lkRun { dir := d } evs).next ≤ 2 ^ 31) : TidyInv (lkRun { dir := d } evs) := by
  refine tidyRun { dir := d } evs (lkInv_init d) (fun _ h => by cases h) (fun _ => trivial) ?_ apart small
  refine ⟨fun c _ => ⟨⟨?_, ?_, ?_⟩, (fun l h => by cases h), fun _ => ⟨rfl, (fun q h => by cases h)⟩⟩, ?_⟩
  · intro i v _ _ x _ hp; cases hp
  · intro x hx; simp [LkSys.now, LkSys.last] at hx
  · intro k n h; cases h
  · intro e k n h; cases h

end Flare
