import Verif.Lemmas.ZkGone

/-! C87: the code of the lock that index servers share, call by call. -/
namespace Flare

/-- Whoever is between a successful `begin_operation` and `end_operation` has a node, and it is the first
one, whatever is answered to the calls, whichever answers get lost, whether the lost requests are carried
out or not and when, and however old what reads show.  What is missing: its session has not expired, no
more than 2^31 numbers are used, and the two threads of an object keep out of each other's way, which the
code does not ensure. -/
theorem C87_inside_first_partial (d : Bool) (evs : List LkEv) (apart : Apart { dir := d } evs)
    (small : (lkRun { dir := d } evs).next ≤ 2 ^ 31) (c : Nat) (h : (lkRun { dir := d } evs).inside c)
    (live : ((lkRun { dir := d } evs).objs c).alive = true) :
    ∃ n ∈ (lkRun { dir := d } evs).now, (lkRun { dir := d } evs).pres[n.who]? = some c ∧
      ∀ x ∈ (lkRun { dir := d } evs).now, n.num ≤ x.num := by
  obtain ⟨I, _⟩ := lkInv_start d evs apart small
  generalize lkRun { dir := d } evs = s at I h live ⊢
  have hin : (s.objs c).isIn := by
    unfold LkSys.inside at h
    simp only [LkObj.isIn, h]
  obtain ⟨n, T⟩ := (I.obj c).lock (.inl hin) live
  refine ⟨n, T.here, T.mine, fun x hx => ?_⟩
  have := (I.obj c).seen
  exact T.first (s.views.length - 1) s.last (by omega) (LkSys.last_eq I.dir.ne) x hx

/-- So there is never more than one. -/
theorem C87_one_inside_partial (d : Bool) (evs : List LkEv) (apart : Apart { dir := d } evs)
    (small : (lkRun { dir := d } evs).next ≤ 2 ^ 31) (a b : Nat)
    (ha : (lkRun { dir := d } evs).inside a) (hb : (lkRun { dir := d } evs).inside b)
    (la : ((lkRun { dir := d } evs).objs a).alive = true)
    (lb : ((lkRun { dir := d } evs).objs b).alive = true) : a = b := by
  obtain ⟨n, hn, pn, fn⟩ := C87_inside_first_partial d evs apart small a ha la
  obtain ⟨m, hm, pm, fm⟩ := C87_inside_first_partial d evs apart small b hb lb
  obtain ⟨I, _⟩ := lkInv_start d evs apart small
  have e : n = m := I.dir.uniq _ _ (LkSys.last_eq I.dir.ne) n hn m hm
    (Nat.le_antisymm (fn m hm) (fm n hn))
  subst e
  rw [pn] at pm
  exact Option.some.inj pm

/-- Under the same conditions `front()` is never called on an empty list. -/
theorem C87_front_partial (d : Bool) (evs : List LkEv) (apart : Apart { dir := d } evs)
    (small : (lkRun { dir := d } evs).next ≤ 2 ^ 31) (c : Nat) :
    ((lkRun { dir := d } evs).objs c).nofront = false :=
  ((lkInv_start d evs apart small).1.obj c).front

/-! #### Runs -/

/-- Object 0 gets the lock. -/
def zkTake0 : List LkEv :=
  [.lock 0 false, .user 0 (.ok 0 []), .user 0 (.ok 0 []), .user 0 (.ok 0 []), .user 0 (.ok 1 [⟨0, 0⟩]),
   .user 0 (.ok 0 []), .await 0 false, .wake 0]

/-- Object 1 waits behind it. -/
def zkWait1 : List LkEv :=
  [.lock 1 false, .user 1 (.ok 0 []), .user 1 (.ok 1 [⟨0, 0⟩]), .user 1 (.ok 0 []),
   .user 1 (.ok 2 [⟨1, 1⟩, ⟨0, 0⟩]), .user 1 (.ok 2 [⟨0, 0⟩, ⟨1, 1⟩]), .user 1 (.ok 0 []), .await 1 false]

example : (lkRun {} (zkTake0 ++ zkWait1)).inside 0 ∧ ((lkRun {} (zkTake0 ++ zkWait1)).objs 1).user = .waiting ∧
    (lkRun {} (zkTake0 ++ zkWait1)).now = [⟨0, 0⟩, ⟨1, 1⟩] := by
  unfold LkSys.inside; decide +kernel

/-- Object 0 is done, and object 1 is told so by the library. -/
def zkPass : List LkEv :=
  zkTake0 ++ zkWait1 ++ [.unlock 0 false, .user 0 (.ok 0 []), .fire 1, .zk 1 (.ok 0 []),
    .zk 1 (.ok 3 [⟨1, 1⟩]), .zk 1 (.ok 3 [⟨1, 1⟩]), .zk 1 (.ok 0 []), .wake 1]

example : Apart {} zkPass ∧ (lkRun {} zkPass).inside 1 ∧ ((lkRun {} zkPass).objs 0).user = .out ∧
    (lkRun {} zkPass).now = [⟨1, 1⟩] := by
  unfold LkSys.inside; decide +kernel

/-! #### Nobody is kept out -/

theorem lkLookup_only {pre : Option Nat} {l : List ZNode} {n : ZNode} (hn : n ∈ l) (hp : pre = some n.who)
    (only : ∀ x ∈ l, x.who = n.who → x = n) : lkLookup pre l = some n := by
  cases e : lkLookup pre l with
  | none =>
    unfold lkLookup at e
    rw [List.find?_eq_none] at e
    exact absurd hp (by simpa using e n hn)
  | some m =>
    obtain ⟨h1, h2⟩ := lkLookup_some e
    rw [hp] at h2
    rw [only m h1 (Option.some.inj h2).symm]

/-- A thread that waits gets in after its next time-out, if its node is the first one by then, its calls
are answered and it is shown the directory as it is, in whatever order.  What is missing: it has created
one node only. -/
theorem C87_next_gets_in_partial (d : Bool) (evs : List LkEv) (apart : Apart { dir := d } evs)
    (small : (lkRun { dir := d } evs).next ≤ 2 ^ 31) (c : Nat) (me : ZNode) (l m : List ZNode)
    (wait : ((lkRun { dir := d } evs).objs c).user = .waiting)
    (idle : ((lkRun { dir := d } evs).objs c).zk = none)
    (live : ((lkRun { dir := d } evs).objs c).alive = true) (hd : (lkRun { dir := d } evs).dir = true)
    (owner : ((lkRun { dir := d } evs).objs c).owner = false)
    (mine : ((lkRun { dir := d } evs).objs c).pre = some me.who) (hl : ∀ x, x ∈ l ↔ x ∈ (lkRun { dir := d } evs).now)
    (hm : ∀ x, x ∈ m ↔ x ∈ (lkRun { dir := d } evs).now)
    (here : me ∈ (lkRun { dir := d } evs).now) (first : ∀ x ∈ (lkRun { dir := d } evs).now, me.num ≤ x.num)
    (only : ∀ x ∈ (lkRun { dir := d } evs).now, x.who = me.who → x = me) :
    (lkRun { dir := d } (evs ++ [.timeout c, .user c (.ok 0 []),
      .user c (.ok ((lkRun { dir := d } evs).views.length - 1) l),
      .user c (.ok ((lkRun { dir := d } evs).views.length - 1) m), .user c (.ok 0 []), .wake c])).inside c := by
  obtain ⟨I, _, _⟩ := lkInv_start d evs apart small
  unfold lkRun at *
  rw [List.foldl_append]
  generalize List.foldl lkStep { dir := d } evs = s at *
  have L := LkSys.last_eq I.dir.ne
  have hseen := (I.obj c).seen
  have low : ∀ x ∈ m, x.num < 2 ^ 31 := fun x hx => small_num I.dir small L x ((hm x).1 hx)
  have shown : ∀ (t : LkSys) (k : List ZNode), t.views = s.views → (t.objs c).alive = true →
      (t.objs c).seen ≤ s.views.length - 1 → (∀ x, x ∈ k ↔ x ∈ s.now) →
      t.shows c (s.views.length - 1) k = true := by
    intro t k hv ha hs hk
    unfold LkSys.shows
    rw [hv, L, ha]
    simp only [Bool.true_and, Bool.and_eq_true, decide_eq_true_eq, List.all_eq_true]
    exact ⟨hs, fun x hx => (hk x).1 hx, fun x hx => (hk x).2 hx⟩
  have lookup := lkLookup_only ((hl me).2 here) mine (fun x hx => only x ((hl x).1 hx))
  have front := zkFront_least ((hm me).2 here) low (fun x hx h => by
    have h1 := first x ((hm x).1 hx)
    have h2 : x.num ≠ me.num := fun e => h (I.dir.uniq _ _ L x ((hm x).1 hx) me here e)
    omega)
  have floor : zkFloor me m = none := zkFloor_none_of fun x hx => by
    rw [before_small (low x hx) (low me ((hm me).2 here))]
    have := first x ((hm x).1 hx)
    exact decide_eq_false (by omega)
  have ne : m ≠ [] := by intro h; have := (hm me).2 here; rw [h] at this; cases this
  simp only [List.foldl_cons, List.foldl_nil]
  -- the time-out
  obtain ⟨s1, e1⟩ : ∃ t, t = s.setUser c (.checking (.parent 10)) := ⟨_, rfl⟩
  have h1 : lkStep s (.timeout c) = s1 := by simp only [lkStep, wait, owner]; exact e1.symm
  have o1 : s1.objs c = { s.objs c with user := .checking (.parent 10) } := by rw [e1]; exact lkUpd_self _ _ _
  have v1 : s1.views = s.views := by rw [e1]; rfl
  have d1 : s1.dir = true := by rw [e1]; exact hd
  rw [h1]
  -- the directory exists
  obtain ⟨s2, e2⟩ : ∃ t, t = s1.setUser c (.checking (.list1 2)) := ⟨_, rfl⟩
  have h2 : lkStep s1 (.user c (.ok 0 [])) = s2 := by
    simp only [lkStep, LkSys.userStep, o1, LkSys.lockCall, live, Bool.true_eq_false, if_false, d1, if_true, lkBegin,
      Bool.false_and, Bool.false_eq_true]
    exact e2.symm
  have o2 : s2.objs c = { s.objs c with user := .checking (.list1 2) } := by
    rw [e2, LkSys.setUser, lkUpd_self, o1]
  have v2 : s2.views = s.views := by rw [e2]; exact v1
  rw [h2]
  -- the first listing
  obtain ⟨s3, e3⟩ : ∃ t, t = (s2.upd c fun o =>
      { o with seen := s.views.length - 1, id := lkLookup o.pre l }).setUser c (.checking (.list2 2 l)) := ⟨_, rfl⟩
  have h3 : lkStep s2 (.user c (.ok (s.views.length - 1) l)) = s3 := by
    have sh : s2.shows c (s.views.length - 1) l = true :=
      shown s2 l v2 (by rw [o2]; exact live) (by rw [o2]; simp only; omega) hl
    have hu : (s2.objs c).user = .checking (.list1 2) := by rw [o2]
    have hk : lkLookup (s2.objs c).pre l = some me := by rw [o2]; exact lookup
    simp only [lkStep, LkSys.userStep, hu, LkSys.lockCall, sh, if_true, hk, Option.isSome_some]
    exact e3.symm
  have o3 : s3.objs c = { s.objs c with user := .checking (.list2 2 l), seen := s.views.length - 1, id := some me } := by
    rw [e3, LkSys.setUser, lkUpd_self, lkUpd_self, o2]
    simp only [lookup]
  have v3 : s3.views = s.views := by rw [e3]; exact v2
  rw [h3]
  -- the second listing
  obtain ⟨s4, e4⟩ : ∃ t, t = (s3.upd c fun o => { o with seen := s.views.length - 1 }).setUser c (.checking .own) := ⟨_, rfl⟩
  have h4 : lkStep s3 (.user c (.ok (s.views.length - 1) m)) = s4 := by
    have sh : s3.shows c (s.views.length - 1) m = true :=
      shown s3 m v3 (by rw [o3]; exact live) (by rw [o3]; exact Nat.le_refl _) hm
    have hu : (s3.objs c).user = .checking (.list2 2 l) := by rw [o3]
    have hi : (s3.objs c).id = some me := by rw [o3]
    simp only [lkStep, LkSys.userStep, hu, LkSys.lockCall, sh, if_true, if_neg ne, lkDecide, front, lkUpd_self, hi, floor]
    exact e4.symm
  have o4 : s4.objs c = { s.objs c with user := .checking .own, seen := s.views.length - 1, id := some me } := by
    rw [e4, LkSys.setUser, lkUpd_self, lkUpd_self, o3]
  rw [h4]
  -- the lock
  obtain ⟨s5, e5⟩ : ∃ t, t = ((s4.upd c fun o => { o with owner := true }).setUser c .waiting).upd c
      (fun o => { o with ret := true }) := ⟨_, rfl⟩
  have h5 : lkStep s4 (.user c (.ok 0 [])) = s5 := by
    have hu : (s4.objs c).user = .checking .own := by rw [o4]
    simp only [lkStep, LkSys.userStep, hu, LkSys.lockCall]
    exact e5.symm
  have o5 : s5.objs c = { s.objs c with user := .waiting, seen := s.views.length - 1, id := some me, owner := true, ret := true } := by
    rw [e5, LkSys.setUser, lkUpd_self, lkUpd_self, lkUpd_self, o4]
  rw [h5]
  have hu : (s5.objs c).user = .waiting := by rw [o5]
  have ho : (s5.objs c).owner = true := by rw [o5]
  have hr : (s5.objs c).ret = true := by rw [o5]
  simp only [lkStep, hu, ho, hr, if_true, LkSys.inside, LkSys.setUser, lkUpd_self]

/-- An object whose operation is over has no node in the directory, so it does not keep others out.  What
is missing: the answer to the creation of a node has never been lost, and neither has it failed; the other
conditions as above. -/
theorem C87_nothing_left_partial (d : Bool) (evs : List LkEv) (apart : Apart { dir := d } evs)
    (small : (lkRun { dir := d } evs).next ≤ 2 ^ 31) (c : Nat)
    (clean : ((lkRun { dir := d } evs).objs c).garbage = false)
    (out : ((lkRun { dir := d } evs).objs c).user = .out) :
    (∀ x ∈ (lkRun { dir := d } evs).now, (lkRun { dir := d } evs).pres[x.who]? ≠ some c) ∧
      ∀ k n, .create c k n ∉ (lkRun { dir := d } evs).flying := by
  obtain ⟨I, _, _⟩ := lkInv_start d evs apart small
  have T := (tidyStart d evs apart small).obj c clean
  generalize lkRun { dir := d } evs = s at *
  refine ⟨fun x hx hp => ?_, T.core.sent⟩
  have := T.core.known (s.views.length - 1) s.last (by have := (I.obj c).seen; omega) (LkSys.last_eq I.dir.ne) x hx
    (T.core.mine x hx hp)
  rw [(T.out out).1] at this; cases this

/-- And while it goes on there is one at most. -/
theorem C87_one_node_partial (d : Bool) (evs : List LkEv) (apart : Apart { dir := d } evs)
    (small : (lkRun { dir := d } evs).next ≤ 2 ^ 31) (c : Nat)
    (clean : ((lkRun { dir := d } evs).objs c).garbage = false) (x y : ZNode)
    (hx : x ∈ (lkRun { dir := d } evs).now) (hy : y ∈ (lkRun { dir := d } evs).now)
    (px : (lkRun { dir := d } evs).pres[x.who]? = some c) (py : (lkRun { dir := d } evs).pres[y.who]? = some c) :
    x = y := by
  obtain ⟨I, _, _⟩ := lkInv_start d evs apart small
  have T := (tidyStart d evs apart small).obj c clean
  generalize lkRun { dir := d } evs = s at *
  have k := fun z hz pz => T.core.known (s.views.length - 1) s.last (by have := (I.obj c).seen; omega)
    (LkSys.last_eq I.dir.ne) z hz (T.core.mine z hz pz)
  have h1 := k x hx px
  rw [k y hy py] at h1
  exact (Option.some.inj h1).symm

/-- In the run above object 0 is done and has left nothing, also when the answer to the removal is lost. -/
example : ((lkRun {} zkPass).objs 0).user = .out ∧ ((lkRun {} zkPass).objs 0).garbage = false ∧
    (lkRun {} zkPass).pres = [0, 1] ∧ (lkRun {} zkPass).now = [⟨1, 1⟩] ∧
    (lkRun {} (zkTake0 ++ [.unlock 0 false, .user 0 (.lost true), .user 0 (.lost false), .user 0 (.ok 0 [])])).now = [] := by
  decide +kernel

/-! #### Where it fails -/

theorem C87_unlock_for_ever_step (s : LkSys) (c : Nat) (n : ZNode) (ev : LkEv)
    (h : (s.objs c).user = .unlocking ∧ (s.objs c).alive = false ∧ (s.objs c).id = some n ∧ (s.objs c).zk = none) :
    ((lkStep s ev).objs c).user = .unlocking ∧ ((lkStep s ev).objs c).alive = false ∧
      ((lkStep s ev).objs c).id = some n ∧ ((lkStep s ev).objs c).zk = none := by
  by_cases g : c = ev.obj
  · obtain ⟨h1, h2, h3, h4⟩ := h
    cases ev with
    | lock d told => simp only [LkEv.obj] at g; subst g; simp [lkStep, h1, h2, h3, h4]
    | await d told => simp only [LkEv.obj] at g; subst g; simp [lkStep, h1, h2, h3, h4]
    | timeout d => simp only [LkEv.obj] at g; subst g; simp [lkStep, h1, h2, h3, h4]
    | wake d => simp only [LkEv.obj] at g; subst g; simp [lkStep, h1, h2, h3, h4]
    | unlock d told => simp only [LkEv.obj] at g; subst g; simp [lkStep, h1, h2, h3, h4]
    | fire d => simp only [LkEv.obj] at g; subst g; simp [lkStep, h1, h2, h3, h4, LkUser.locks]
    | zk d a => simp only [LkEv.obj] at g; subst g; simp [lkStep, LkSys.zkStep, h1, h2, h3, h4]
    | user d a =>
      simp only [LkEv.obj] at g; subst g
      cases a <;>
        simp [lkStep, LkSys.userStep, LkSys.unlockCall, LkSys.lose, h1, h2, h3, h4]
    | land i =>
      simp only [lkStep]
      split
      · rw [exec_objs]; exact ⟨h1, h2, h3, h4⟩
      · exact ⟨h1, h2, h3, h4⟩
    | expire d => simp only [LkEv.obj] at g; subst g; simp [lkStep, lkUpd_self, LkSys.push, h1, h3, h4]
  · rw [lkStep_same s ev c g]; exact h

/-- The session expires while the operation ends: `unlock` asks for the removal of the node again and
again, since every error is taken for a lost connection; it never returns, whatever happens. -/
theorem C87_unlock_for_ever (s : LkSys) (c : Nat) (n : ZNode) (evs : List LkEv)
    (h1 : (s.objs c).user = .unlocking) (h2 : (s.objs c).alive = false) (h3 : (s.objs c).id = some n)
    (h4 : (s.objs c).zk = none) : ((lkRun s evs).objs c).user = .unlocking := by
  suffices h : ((lkRun s evs).objs c).user = .unlocking ∧ ((lkRun s evs).objs c).alive = false ∧
      ((lkRun s evs).objs c).id = some n ∧ ((lkRun s evs).objs c).zk = none from h.1
  have h : (s.objs c).user = .unlocking ∧ (s.objs c).alive = false ∧ (s.objs c).id = some n ∧ (s.objs c).zk = none :=
    ⟨h1, h2, h3, h4⟩
  clear h1 h2 h3 h4
  induction evs generalizing s with
  | nil => exact h
  | cons ev evs ih => exact ih (lkStep s ev) (C87_unlock_for_ever_step s c n ev h)

/-- A run that gets there. -/
example :
    let s := lkRun {} (zkTake0 ++ [.unlock 0 false, .expire 0])
    (s.objs 0).user = .unlocking ∧ (s.objs 0).alive = false ∧ (s.objs 0).id = some ⟨0, 0⟩ ∧ (s.objs 0).zk = none := by
  decide +kernel

/-- Where a waiting thread of a dead session is. -/
def LkObj.stuck (o : LkObj) : Prop :=
  o.alive = false ∧ o.owner = false ∧ (o.user = .waiting ∨ ∃ r, o.user = .checking (.parent r)) ∧
    (o.zk = none ∨ ∃ r, o.zk = some (.parent r))

theorem C87_wait_for_ever_step (s : LkSys) (c : Nat) (ev : LkEv) (h : (s.objs c).stuck) :
    ((lkStep s ev).objs c).stuck := by
  by_cases g : c = ev.obj
  · obtain ⟨h1, h2, h3, h4⟩ := h
    cases ev with
    | lock d told =>
      simp only [LkEv.obj] at g; subst g
      rcases h3 with h3 | ⟨r, h3⟩ <;> simp [lkStep, LkObj.stuck, h1, h2, h3, h4]
    | await d told =>
      simp only [LkEv.obj] at g; subst g
      rcases h3 with h3 | ⟨r, h3⟩ <;> simp [lkStep, LkObj.stuck, h1, h2, h3, h4]
    | timeout d =>
      simp only [LkEv.obj] at g; subst g
      rcases h3 with h3 | ⟨r, h3⟩ <;> simp [lkStep, LkObj.stuck, LkSys.setUser, lkUpd_self, h1, h2, h3, h4]
    | wake d =>
      simp only [LkEv.obj] at g; subst g
      rcases h3 with h3 | ⟨r, h3⟩ <;> simp [lkStep, LkObj.stuck, h1, h2, h3, h4]
    | unlock d told =>
      simp only [LkEv.obj] at g; subst g
      rcases h3 with h3 | ⟨r, h3⟩ <;> simp [lkStep, LkObj.stuck, h1, h2, h3, h4]
    | fire d =>
      simp only [LkEv.obj] at g; subst g
      rcases h3 with h3 | ⟨r, h3⟩ <;> rcases h4 with h4 | ⟨q, h4⟩ <;>
        simp [lkStep, LkObj.stuck, LkSys.setZk, lkUpd_self, LkUser.locks, h1, h2, h3, h4]
    | zk d a =>
      simp only [LkEv.obj] at g; subst g
      rcases h4 with h4 | ⟨q, h4⟩
      · simp only [lkStep, LkSys.zkStep, h4]
        exact ⟨h1, h2, h3, .inl h4⟩
      · cases a <;> cases q <;>
          simp [lkStep, LkSys.zkStep, LkSys.lockCall, LkObj.stuck, LkSys.setZk, lkUpd_self, h1, h2, h3, h4]
    | user d a =>
      simp only [LkEv.obj] at g; subst g
      rcases h3 with h3 | ⟨q, h3⟩
      · simp only [lkStep, LkSys.userStep, h3]
        exact ⟨h1, h2, .inl h3, h4⟩
      · cases a <;> cases q <;>
          simp [lkStep, LkSys.userStep, LkSys.lockCall, LkObj.stuck, LkSys.setUser, lkUpd_self, h1, h2, h3, h4]
    | land i =>
      simp only [lkStep]
      split
      · rw [exec_objs]; exact ⟨h1, h2, h3, h4⟩
      · exact ⟨h1, h2, h3, h4⟩
    | expire d =>
      simp only [LkEv.obj] at g; subst g
      simp only [lkStep, lkUpd_self, LkSys.push]
      exact ⟨rfl, h2, h3, h4⟩
  · rw [lkStep_same s ev c g]; exact h

/-- The session expires while the thread waits: `wait_for_ownership` never returns, whatever happens. -/
theorem C87_wait_for_ever (s : LkSys) (c : Nat) (evs : List LkEv) (h1 : (s.objs c).user = .waiting)
    (h2 : (s.objs c).alive = false) (h3 : (s.objs c).owner = false) (h4 : (s.objs c).zk = none) :
    ((lkRun s evs).objs c).user = .waiting ∨ ∃ r, ((lkRun s evs).objs c).user = .checking (.parent r) := by
  suffices h : ((lkRun s evs).objs c).stuck from h.2.2.1
  have h : (s.objs c).stuck := ⟨h2, h3, .inl h1, .inl h4⟩
  clear h1 h2 h3 h4
  induction evs generalizing s with
  | nil => exact h
  | cons ev evs ih => exact ih (lkStep s ev) (C87_wait_for_ever_step s c ev h)

/-- A run that gets there. -/
example :
    let s := lkRun {} (zkTake0 ++ zkWait1 ++ [.expire 1])
    (s.objs 1).user = .waiting ∧ (s.objs 1).alive = false ∧ (s.objs 1).owner = false ∧ (s.objs 1).zk = none := by
  decide +kernel

/-- The library thread has seen an older listing and gives up its node, since it cannot watch the one
before, while the waiting thread has just been shown that node as the first: `wait_for_ownership` works on
the object without `_mutex_lock`.  The operation goes on without a node, and another one starts. -/
theorem C87_two_inside :
    let evs : List LkEv := zkTake0 ++
      [.lock 2 false, .user 2 (.ok 0 []), .user 2 (.ok 1 [⟨0, 0⟩]), .user 2 (.ok 0 []),
       .user 2 (.ok 2 [⟨0, 0⟩, ⟨1, 1⟩]), .user 2 (.ok 2 [⟨0, 0⟩, ⟨1, 1⟩]), .user 2 (.ok 0 []), .await 2 false,
       .lock 1 false, .user 1 (.ok 0 []), .user 1 (.ok 2 [⟨0, 0⟩, ⟨1, 1⟩]), .user 1 (.ok 0 []),
       .user 1 (.ok 3 [⟨0, 0⟩, ⟨1, 1⟩, ⟨2, 2⟩]), .user 1 (.ok 3 [⟨0, 0⟩, ⟨1, 1⟩, ⟨2, 2⟩]), .user 1 (.ok 0 []),
       .await 1 false,
       -- the node before goes, and the library thread looks again
       .expire 2, .fire 1, .zk 1 (.ok 0 []), .zk 1 (.ok 4 [⟨0, 0⟩, ⟨2, 2⟩]), .zk 1 (.ok 4 [⟨0, 0⟩, ⟨2, 2⟩]),
       .zk 1 (.lost false), .zk 1 (.lost false), .zk 1 (.lost false),
       -- the first operation ends, and the waiting thread looks too
       .unlock 0 false, .user 0 (.ok 0 []),
       .timeout 1, .user 1 (.ok 0 []), .user 1 (.ok 5 [⟨2, 2⟩]), .user 1 (.ok 5 [⟨2, 2⟩]),
       .zk 1 (.ok 0 []), .user 1 (.ok 0 []), .wake 1,
       .lock 0 false, .user 0 (.ok 0 []), .user 0 (.ok 6 []), .user 0 (.ok 0 []), .user 0 (.ok 7 [⟨3, 3⟩]),
       .user 0 (.ok 0 []), .await 0 false, .wake 0]
    (lkRun {} evs).inside 0 ∧ (lkRun {} evs).inside 1 ∧ ((lkRun {} evs).objs 0).alive = true ∧
    ((lkRun {} evs).objs 1).alive = true ∧ ¬ Apart {} evs := by
  unfold LkSys.inside; decide +kernel

/-- A node is created, but the answer is lost; the next listing is too old to show it, and a second one is
created under the same name.  When the operation is over only one of them is removed, and the object goes
back to the pool with its session: from now on nobody gets the lock. -/
theorem C87_node_left :
    let evs : List LkEv := zkTake0 ++
      [.lock 1 false, .user 1 (.ok 0 []), .user 1 (.ok 1 [⟨0, 0⟩]), .user 1 (.ok 0 []),
       .user 1 (.ok 2 [⟨0, 0⟩, ⟨1, 1⟩]), .user 1 (.lost false), .user 1 (.lost false), .user 1 (.lost false),
       .user 1 (.ok 0 []), .await 1 false,
       .timeout 1, .user 1 (.ok 0 []), .user 1 (.ok 3 [⟨0, 0⟩]), .user 1 (.lost true),
       .timeout 1, .user 1 (.ok 0 []), .user 1 (.ok 3 [⟨0, 0⟩]), .user 1 (.ok 0 []),
       .user 1 (.ok 5 [⟨0, 0⟩, ⟨2, 2⟩, ⟨3, 2⟩]), .user 1 (.ok 5 [⟨0, 0⟩, ⟨2, 2⟩, ⟨3, 2⟩]), .user 1 (.ok 0 []),
       .unlock 0 false, .user 0 (.ok 0 []),
       .timeout 1, .user 1 (.ok 0 []), .user 1 (.ok 6 [⟨2, 2⟩, ⟨3, 2⟩]), .user 1 (.ok 6 [⟨2, 2⟩, ⟨3, 2⟩]),
       .user 1 (.ok 0 []), .wake 1, .unlock 1 false, .user 1 (.ok 0 [])]
    Apart {} evs ∧ ((lkRun {} evs).objs 0).user = .out ∧ ((lkRun {} evs).objs 1).user = .out ∧
    ((lkRun {} evs).objs 1).alive = true ∧ ((lkRun {} evs).objs 1).pre = none ∧
    (lkRun {} evs).now = [⟨3, 2⟩] := by
  decide +kernel

/-- An attempt after a time-out fails; then the lock is had, but `wait_for_ownership` returns the error of
the attempt, and the operation is refused. -/
theorem C87_owner_refused :
    let evs : List LkEv := zkTake0 ++ zkWait1 ++ [.timeout 1, .user 1 .fail, .unlock 0 false, .user 0 (.ok 0 []),
      .fire 1, .zk 1 (.ok 0 []), .zk 1 (.ok 3 [⟨1, 1⟩]), .zk 1 (.ok 3 [⟨1, 1⟩]), .zk 1 (.ok 0 []), .wake 1]
    Apart {} evs ∧ ((lkRun {} evs).objs 1).owner = true ∧ ((lkRun {} evs).objs 1).alive = true ∧
    (lkRun {} evs).now = [⟨1, 1⟩] ∧ ((lkRun {} evs).objs 1).user = .failed := by
  decide +kernel

/-- Two servers find that the directory does not exist; the one that creates it second is told so, and
gives up. -/
theorem C87_parent_race :
    let evs : List LkEv := [.lock 0 false, .lock 1 false, .user 0 (.ok 0 []), .user 1 (.ok 0 []), .user 0 (.ok 0 []),
      .user 1 (.ok 0 [])]
    ((lkRun { dir := false } evs).objs 1).user = .failed ∧ (lkRun { dir := false } evs).dir = true ∧
    ((lkRun { dir := false } evs).objs 1).alive = true := by
  decide +kernel

/-- When the creation of a node fails, the buffer for its name is read all the same; nothing has been
written to it. -/
theorem C87_buffer_read :
    ((lkRun {} [.lock 0 false, .user 0 (.ok 0 []), .user 0 (.ok 0 []), .user 0 .fail]).objs 0).garbage = true := by
  decide +kernel

/-- No node in the directory is of a session that has expired, whatever becomes of the calls and of the requests whose answers
were lost, whichever threads run at the same time, and however often the counter has gone round. -/
theorem C87_expired_leaves_nothing (d : Bool) (evs : List LkEv) (c : Nat)
    (out : ((lkRun { dir := d } evs).objs c).alive = false) :
    ∀ x ∈ (lkRun { dir := d } evs).now, (lkRun { dir := d } evs).pres[x.who]? ≠ some c :=
  ((LkGone.init d).run evs).gone c out

/-- The request to make the node comes in after the session has expired. -/
example :
    let evs : List LkEv := [.lock 0 false, .user 0 (.ok 0 []), .user 0 (.ok 0 []), .user 0 (.lost false), .lock 1 false,
      .user 1 (.ok 0 []), .user 1 (.ok 0 []), .user 1 (.ok 0 []), .expire 0, .land 0]
    (lkRun {} evs).now = [⟨0, 1⟩] ∧ (lkRun {} evs).pres = [0, 1] ∧ ((lkRun {} evs).objs 0).alive = false ∧
    (lkRun {} evs).flying = [] := by
  decide +kernel

end Flare
