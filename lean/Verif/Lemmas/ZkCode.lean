import Verif.Model.ZkCode
import Verif.Lemmas.ZkLock

/-! Lemmas about the statement by statement model of the shared lock. -/
namespace Flare

/-! ### Objects -/

/-- Where the object is in `_lock_internal`. -/
def LkObj.pos (o : LkObj) : Option LkAt :=
  match o.user with
  | .locking p => some p
  | .checking p => some p
  | _ => o.zk

def LkObj.isIn (o : LkObj) : Prop :=
  match o.user with
  | .inside => True
  | _ => False

def LkObj.leaving (o : LkObj) : Prop :=
  match o.user with
  | .unlocking => True
  | _ => False

def LkObj.deleting (o : LkObj) : Prop := (o.leaving ∧ o.id ≠ none) ∨ o.pos = some .giveUp

def LkObj.watching (o : LkObj) : Prop := (∃ p r, o.pos = some (.watch p r)) ∨ o.pos = some .giveUp

/-- The object has the lock, or believes so. -/
def LkObj.claims (o : LkObj) : Prop := o.isIn ∨ o.pos = some .own ∨ (o.owner = true ∧ ¬ (o.leaving ∧ o.id ≠ none))

/-! ### The directory -/

structure DirOk (views : List (Nat × List ZNode)) (pres : List Nat) : Prop where
  ne : views ≠ []
  num : ∀ (i : Nat) (v : Nat × List ZNode), views[i]? = some v → ∀ x ∈ v.2, x.num < v.1
  uniq : ∀ (i : Nat) (v : Nat × List ZNode), views[i]? = some v → ∀ x ∈ v.2, ∀ y ∈ v.2, x.num = y.num → x = y
  mono : ∀ (i j : Nat) (v w : Nat × List ZNode), i ≤ j → views[i]? = some v → views[j]? = some w →
    v.1 ≤ w.1 ∧ ∀ x ∈ w.2, x.num < v.1 → x ∈ v.2
  who : ∀ (i : Nat) (v : Nat × List ZNode), views[i]? = some v → ∀ x ∈ v.2, x.who < pres.length

theorem getElem?_push {α} (l : List α) (a : α) (i : Nat) :
    (l ++ [a])[i]? = if i < l.length then l[i]? else if i = l.length then some a else none := by
  by_cases h : i < l.length
  · rw [if_pos h, List.getElem?_append_left h]
  · rw [if_neg h]
    by_cases g : i = l.length
    · subst g; simp
    · rw [if_neg g, List.getElem?_eq_none]; simp; omega

theorem LkSys.last_eq {s : LkSys} (h : s.views ≠ []) : s.views[s.views.length - 1]? = some s.last := by
  unfold LkSys.last
  rw [← List.getLast?_eq_getElem?]
  cases e : s.views.getLast? with
  | none => exact absurd (List.getLast?_eq_none_iff.1 e) h
  | some v => rfl

theorem DirOk.last_num {s : LkSys} (D : DirOk s.views s.pres) : ∀ x ∈ s.now, x.num < s.next :=
  D.num _ _ (LkSys.last_eq D.ne)

theorem lt_of_view {α} {l : List α} {i : Nat} {v : α} (h : l[i]? = some v) : i < l.length := by
  by_cases g : i < l.length
  · exact g
  · rw [List.getElem?_eq_none (by omega)] at h; cases h

theorem DirOk.last_mono {s : LkSys} (D : DirOk s.views s.pres) {i : Nat} {v : Nat × List ZNode} (h : s.views[i]? = some v) :
    v.1 ≤ s.next ∧ ∀ x ∈ s.now, x.num < v.1 → x ∈ v.2 :=
  D.mono i _ v _ (by have := lt_of_view h; omega) h (LkSys.last_eq D.ne)

/-- A new state that only takes nodes away. -/
theorem DirOk.push_sub {s : LkSys} (D : DirOk s.views s.pres) (l : List ZNode)
    (sub : ∀ x ∈ l, x ∈ s.now) : DirOk (s.push (s.next, l)).views s.pres := by
  have L := LkSys.last_eq D.ne
  constructor
  · simp [LkSys.push]
  · intro i v h
    simp only [LkSys.push, getElem?_push] at h
    split at h
    · exact D.num i v h
    · split at h
      · cases h; intro x hx; exact D.last_num x (sub x hx)
      · cases h
  · intro i v h
    simp only [LkSys.push, getElem?_push] at h
    split at h
    · exact D.uniq i v h
    · split at h
      · cases h; intro x hx y hy; exact D.uniq _ _ L x (sub x hx) y (sub y hy)
      · cases h
  · intro i j v w ij hi hj
    simp only [LkSys.push, getElem?_push] at hi hj
    split at hj
    · rename_i hlt
      rw [if_pos (Nat.lt_of_le_of_lt ij hlt)] at hi
      exact D.mono i j v w ij hi hj
    · split at hj
      · cases hj
        split at hi
        · have := D.last_mono hi
          exact ⟨this.1, fun x hx hn => this.2 x (sub x hx) hn⟩
        · split at hi
          · cases hi; exact ⟨Nat.le_refl _, fun x hx _ => hx⟩
          · cases hi
      · cases hj
  · intro i v h
    simp only [LkSys.push, getElem?_push] at h
    split at h
    · exact D.who i v h
    · split at h
      · cases h; intro x hx; exact D.who _ _ L x (sub x hx)
      · cases h

/-- A new state with one more node. -/
theorem DirOk.push_add {s : LkSys} (D : DirOk s.views s.pres) (k skip : Nat) (hk : k < s.pres.length) :
    DirOk (s.push (s.next + skip + 1, s.now ++ [⟨s.next + skip, k⟩])).views s.pres := by
  have L := LkSys.last_eq D.ne
  have hnum := D.last_num
  constructor
  · simp [LkSys.push]
  · intro i v h
    simp only [LkSys.push, getElem?_push] at h
    split at h
    · exact D.num i v h
    · split at h
      · cases h; intro x hx
        rcases List.mem_append.1 hx with hx | hx
        · have := hnum x hx; simp only; omega
        · rw [List.mem_singleton] at hx; subst hx; simp only; omega
      · cases h
  · intro i v h
    simp only [LkSys.push, getElem?_push] at h
    split at h
    · exact D.uniq i v h
    · split at h
      · cases h; intro x hx y hy e
        rcases List.mem_append.1 hx with hx | hx <;> rcases List.mem_append.1 hy with hy | hy
        · exact D.uniq _ _ L x hx y hy e
        · rw [List.mem_singleton] at hy; subst hy
          have := hnum x hx; simp only at e; omega
        · rw [List.mem_singleton] at hx; subst hx
          have := hnum y hy; simp only at e; omega
        · rw [List.mem_singleton] at hx hy; rw [hx, hy]
      · cases h
  · intro i j v w ij hi hj
    simp only [LkSys.push, getElem?_push] at hi hj
    split at hj
    · rename_i hlt
      rw [if_pos (Nat.lt_of_le_of_lt ij hlt)] at hi
      exact D.mono i j v w ij hi hj
    · split at hj
      · cases hj
        split at hi
        · have := D.last_mono hi
          refine ⟨by simp only; omega, fun x hx hn => ?_⟩
          rcases List.mem_append.1 hx with hx | hx
          · exact this.2 x hx hn
          · rw [List.mem_singleton] at hx; subst hx; simp only at hn; omega
        · split at hi
          · cases hi; exact ⟨Nat.le_refl _, fun x hx _ => hx⟩
          · cases hi
      · cases hj
  · intro i v h
    simp only [LkSys.push, getElem?_push] at h
    split at h
    · exact D.who i v h
    · split at h
      · cases h; intro x hx
        rcases List.mem_append.1 hx with hx | hx
        · exact D.who _ _ L x hx
        · rw [List.mem_singleton] at hx; subst hx; exact hk
      · cases h

theorem DirOk.pres_add {views pres} (D : DirOk views pres) (c : Nat) : DirOk views (pres ++ [c]) where
  ne := D.ne
  num := D.num
  uniq := D.uniq
  mono := D.mono
  who := fun i v h x hx => by
    have := D.who i v h x hx
    simp only [List.length_append, List.length_singleton]; omega

/-! ### What holds of an object -/

/-- A node that gives the lock to object `c`. -/
structure Ticket (s : LkSys) (c : Nat) (o : LkObj) (n : ZNode) : Prop where
  mine : s.pres[n.who]? = some c
  here : n ∈ s.now
  first : ∀ (i : Nat) (v : Nat × List ZNode), o.seen ≤ i → s.views[i]? = some v → ∀ x ∈ v.2, n.num ≤ x.num
  safe : .delete n ∉ s.flying
  kept : o.watching → o.id ≠ some n

structure ObjOk (s : LkSys) (c : Nat) (o : LkObj) : Prop where
  pre : ∀ k, o.pre = some k → s.pres[k]? = some c
  id : ∀ n, o.id = some n → o.pre = some n.who ∧ ∃ i : Nat, ∃ v : Nat × List ZNode, i ≤ o.seen ∧ s.views[i]? = some v ∧ n ∈ v.2
  seen : o.seen < s.views.length
  sent : ∀ m, .delete m ∈ s.flying → o.pre = some m.who → o.deleting
  still : ∀ k, o.pre = some k → o.alive = true → ¬ o.deleting →
    ∀ (i : Nat) (v : Nat × List ZNode), s.views[i]? = some v → ∀ x ∈ v.2, x.who = k → x ∈ s.now
  lock : o.claims → o.alive = true → ∃ n, Ticket s c o n
  named : (∃ r l, o.pos = some (.list2 r l)) ∨ o.watching → o.id ≠ none
  front : o.nofront = false

def ZReq.who : ZReq → Nat
  | .create _ k _ => k
  | .delete n => n.who

structure LkInv (s : LkSys) : Prop where
  dir : DirOk s.views s.pres
  obj : ∀ c, ObjOk s c (s.objs c)
  made : ∀ q ∈ s.flying, q.who < s.pres.length

theorem push_now (s : LkSys) (v : Nat × List ZNode) : (s.push v).now = v.2 ∧ (s.push v).next = v.1 := by
  simp [LkSys.push, LkSys.now, LkSys.next, LkSys.last]

/-- Taking nodes away does not disturb an object whose nodes stay. -/
theorem ObjOk.push_sub {s : LkSys} {c : Nat} {o : LkObj} (O : ObjOk s c o) (l : List ZNode)
    (sub : ∀ x ∈ l, x ∈ s.now)
    (keep : ∀ x ∈ s.now, o.pre = some x.who → o.alive = true → ¬ o.deleting → x ∈ l)
    (hold : ∀ n, o.claims → o.alive = true → Ticket s c o n → n ∈ l) :
    ObjOk (s.push (s.next, l)) c o := by
  constructor
  · exact O.pre
  · intro n hn
    obtain ⟨h1, i, v, hi, hv, hm⟩ := O.id n hn
    refine ⟨h1, i, v, hi, ?_, hm⟩
    simp only [LkSys.push, getElem?_push, if_pos (lt_of_view hv)]; exact hv
  · have := O.seen; simp only [LkSys.push, List.length_append, List.length_singleton]; omega
  · exact O.sent
  · intro k hk ha hd i v hv x hx hw
    rw [(push_now _ _).1]
    simp only [LkSys.push, getElem?_push] at hv
    split at hv
    · exact keep x (O.still k hk ha hd i v hv x hx hw) (hw ▸ hk) ha hd
    · split at hv
      · cases hv; exact hx
      · cases hv
  · intro hc ha
    obtain ⟨n, T⟩ := O.lock hc ha
    refine ⟨n, T.mine, ?_, ?_, T.safe, T.kept⟩
    · rw [(push_now _ _).1]; exact hold n hc ha T
    · intro i v hi hv x hx
      simp only [LkSys.push, getElem?_push] at hv
      split at hv
      · exact T.first i v hi hv x hx
      · split at hv
        · cases hv
          have := O.seen
          have hne : s.views ≠ [] := by intro h; rw [h] at this; simp at this
          exact T.first (s.views.length - 1) s.last (by omega) (LkSys.last_eq hne) x (sub x hx)
        · cases hv
  · exact O.named
  · exact O.front

/-- Nor does a new node. -/
theorem ObjOk.push_add {s : LkSys} {c : Nat} {o : LkObj} (D : DirOk s.views s.pres) (O : ObjOk s c o)
    (k skip : Nat) :
    ObjOk (s.push (s.next + skip + 1, s.now ++ [⟨s.next + skip, k⟩])) c o := by
  constructor
  · exact O.pre
  · intro n hn
    obtain ⟨h1, i, v, hi, hv, hm⟩ := O.id n hn
    refine ⟨h1, i, v, hi, ?_, hm⟩
    simp only [LkSys.push, getElem?_push, if_pos (lt_of_view hv)]; exact hv
  · have := O.seen; simp only [LkSys.push, List.length_append, List.length_singleton]; omega
  · exact O.sent
  · intro k' hk ha hd i v hv x hx hw
    rw [(push_now _ _).1]
    simp only [LkSys.push, getElem?_push] at hv
    split at hv
    · exact List.mem_append.2 (.inl (O.still k' hk ha hd i v hv x hx hw))
    · split at hv
      · cases hv; exact hx
      · cases hv
  · intro hc ha
    obtain ⟨n, T⟩ := O.lock hc ha
    refine ⟨n, T.mine, ?_, ?_, T.safe, T.kept⟩
    · rw [(push_now _ _).1]; exact List.mem_append.2 (.inl T.here)
    · intro i v hi hv x hx
      simp only [LkSys.push, getElem?_push] at hv
      split at hv
      · exact T.first i v hi hv x hx
      · split at hv
        · cases hv
          rcases List.mem_append.1 hx with hx | hx
          · have := O.seen
            exact T.first (s.views.length - 1) s.last (by omega) (LkSys.last_eq D.ne) x hx
          · rw [List.mem_singleton] at hx; subst hx
            have := D.last_num n T.here; simp only; omega
        · cases hv
  · exact O.named
  · exact O.front

theorem ObjOk.flying_sub {s : LkSys} {c : Nat} {o : LkObj} (O : ObjOk s c o) (l : List ZReq)
    (sub : ∀ m, .delete m ∈ l → ZReq.delete m ∈ s.flying) : ObjOk { s with flying := l } c o where
  pre := O.pre
  id := O.id
  seen := O.seen
  sent := fun m hm => O.sent m (sub m hm)
  still := O.still
  lock := fun hc ha => by
    obtain ⟨n, T⟩ := O.lock hc ha
    exact ⟨n, T.mine, T.here, T.first, fun h => T.safe (sub n h), T.kept⟩
  named := O.named
  front := O.front

/-- A removal whose answer is lost does not disturb an object whose node it is not. -/
theorem ObjOk.flying_delete {s : LkSys} {c : Nat} {o : LkObj} (O : ObjOk s c o) (m : ZNode)
    (del : o.pre = some m.who → o.deleting)
    (hold : ∀ n, o.claims → o.alive = true → Ticket s c o n → n ≠ m) :
    ObjOk { s with flying := s.flying ++ [.delete m] } c o where
  pre := O.pre
  id := O.id
  seen := O.seen
  sent := fun x hx => by
    rcases List.mem_append.1 hx with h | h
    · exact O.sent x h
    · rw [List.mem_singleton] at h; cases h; exact del
  still := O.still
  lock := fun hc ha => by
    obtain ⟨n, T⟩ := O.lock hc ha
    refine ⟨n, T.mine, T.here, T.first, fun h => ?_, T.kept⟩
    rcases List.mem_append.1 h with h | h
    · exact T.safe h
    · rw [List.mem_singleton] at h; cases h; exact hold _ hc ha T rfl
  named := O.named
  front := O.front

theorem ObjOk.pres_add {s : LkSys} {c : Nat} {o : LkObj} (O : ObjOk s c o) (d : Nat) :
    ObjOk { s with pres := s.pres ++ [d] } c o where
  pre := fun k hk => by
    have := O.pre k hk
    simp only [getElem?_push, if_pos (lt_of_view this)]; exact this
  id := O.id
  seen := O.seen
  sent := O.sent
  still := O.still
  lock := fun hc ha => by
    obtain ⟨n, T⟩ := O.lock hc ha
    refine ⟨n, ?_, T.here, T.first, T.safe, T.kept⟩
    have := T.mine
    simp only [getElem?_push, if_pos (lt_of_view this)]; exact this
  named := O.named
  front := O.front

/-- Only the views, the prefixes and the requests under way matter. -/
theorem ObjOk.congr {s t : LkSys} {c : Nat} {o : LkObj} (O : ObjOk s c o) (h1 : t.views = s.views)
    (h2 : t.pres = s.pres) (h3 : t.flying = s.flying) : ObjOk t c o := by
  have hn : t.now = s.now := by simp only [LkSys.now, LkSys.last, h1]
  constructor
  · rw [h2]; exact O.pre
  · rw [h1]; exact O.id
  · rw [h1]; exact O.seen
  · rw [h3]; exact O.sent
  · rw [h1, hn]; exact O.still
  · intro hc ha
    obtain ⟨n, T⟩ := O.lock hc ha
    exact ⟨n, h2 ▸ T.mine, hn ▸ T.here, h1 ▸ T.first, h3 ▸ T.safe, T.kept⟩
  · exact O.named
  · exact O.front

/-! ### Steps of one object -/

/-- All is well but for one object. -/
structure LkBut (s : LkSys) (c : Nat) : Prop where
  dir : DirOk s.views s.pres
  obj : ∀ d, d ≠ c → ObjOk s d (s.objs d)
  made : ∀ q ∈ s.flying, q.who < s.pres.length

theorem LkInv.but {s : LkSys} (I : LkInv s) (c : Nat) : LkBut s c :=
  ⟨I.dir, fun d _ => I.obj d, I.made⟩

theorem LkBut.upd {s : LkSys} {c : Nat} (I : LkBut s c) (f : LkObj → LkObj) : LkBut (s.upd c f) c :=
  ⟨I.dir, fun d hd => by
    have : (s.upd c f).objs d = s.objs d := by simp [LkSys.upd, hd]
    rw [this]
    exact (I.obj d hd).congr rfl rfl rfl, I.made⟩

theorem lkUpd_self (s : LkSys) (c : Nat) (f : LkObj → LkObj) : (s.upd c f).objs c = f (s.objs c) := by
  simp [LkSys.upd]

theorem LkBut.done {s : LkSys} {c : Nat} (I : LkBut s c) (O : ObjOk s c (s.objs c)) : LkInv s :=
  ⟨I.dir, fun d => if h : d = c then h ▸ O else I.obj d h, I.made⟩

/-- A step that neither touches the directory nor takes a lock. -/
theorem ObjOk.move {s : LkSys} {c : Nat} {o o2 : LkObj} (O : ObjOk s c o)
    (hpre : o2.pre = o.pre) (halive : o2.alive = o.alive) (hfront : o2.nofront = false)
    (hseen : o.seen ≤ o2.seen) (hlen : o2.seen < s.views.length)
    (hid : ∀ n, o2.id = some n → o.pre = some n.who ∧
      ∃ i : Nat, ∃ v : Nat × List ZNode, i ≤ o2.seen ∧ s.views[i]? = some v ∧ n ∈ v.2)
    (hdel : o.deleting → o2.deleting) (hclaims : o2.claims → o.claims)
    (hkept : o2.watching → ∀ n, Ticket s c o n → o2.id ≠ some n)
    (hnamed : (∃ r l, o2.pos = some (.list2 r l)) ∨ o2.watching → o2.id ≠ none) : ObjOk s c o2 where
  pre := fun k hk => O.pre k (hpre ▸ hk)
  id := fun n hn => by rw [hpre]; exact hid n hn
  seen := hlen
  sent := fun m hm hk => hdel (O.sent m hm (hpre ▸ hk))
  still := fun k hk ha hd => O.still k (hpre ▸ hk) (halive ▸ ha) (fun h => hd (hdel h))
  lock := fun hc ha => by
    obtain ⟨n, T⟩ := O.lock (hclaims hc) (halive ▸ ha)
    exact ⟨n, T.mine, T.here, fun i v hi => T.first i v (Nat.le_trans hseen hi), T.safe,
      fun hw => hkept hw n T⟩
  named := hnamed
  front := hfront

/-- The object's node is in every state that it may be shown. -/
theorem ObjOk.mine_shown {s : LkSys} {c : Nat} {o : LkObj} (D : DirOk s.views s.pres) (O : ObjOk s c o)
    {n : ZNode} (hn : o.id = some n) (ha : o.alive = true) (hd : ¬ o.deleting) :
    n ∈ s.now ∧ ∀ (i : Nat) (v : Nat × List ZNode), o.seen ≤ i → s.views[i]? = some v →
      n ∈ v.2 ∧ n.num < v.1 := by
  obtain ⟨hp, j, w, hj, hw, hm⟩ := O.id n hn
  have here := O.still _ hp ha hd j w hw n hm rfl
  refine ⟨here, fun i v hi hv => ?_⟩
  have h1 := (D.mono j i w v (Nat.le_trans hj hi) hw hv).1
  have h2 := D.num j w hw n hm
  have : n.num < v.1 := Nat.lt_of_lt_of_le h2 h1
  exact ⟨(D.last_mono hv).2 n here this, this⟩

theorem LkSys.shows_iff {s : LkSys} {c i : Nat} {l : List ZNode} (h : s.shows c i l = true) :
    (s.objs c).alive = true ∧ (s.objs c).seen ≤ i ∧
      ∃ v : Nat × List ZNode, s.views[i]? = some v ∧ ∀ x, x ∈ l ↔ x ∈ v.2 := by
  unfold LkSys.shows at h
  simp only [Bool.and_eq_true, decide_eq_true_eq] at h
  obtain ⟨⟨h1, h2⟩, h3⟩ := h
  refine ⟨h1, h2, ?_⟩
  cases e : s.views[i]? with
  | none => rw [e] at h3; cases h3
  | some v =>
    rw [e] at h3
    simp only [Bool.and_eq_true, List.all_eq_true, decide_eq_true_eq] at h3
    exact ⟨v, rfl, fun x => ⟨h3.1 x, h3.2 x⟩⟩

theorem lkLookup_some {pre : Option Nat} {l : List ZNode} {n : ZNode} (h : lkLookup pre l = some n) :
    n ∈ l ∧ pre = some n.who := by
  unfold lkLookup at h
  exact ⟨List.mem_of_find?_eq_some h, by simpa using List.find?_some h⟩

def LkNext.pos : LkNext → Option LkAt
  | .go p => some p
  | .ret _ => none

/-- Object `o2` is `o1` put at the position that a call has reached. -/
structure Put (o1 o2 : LkObj) (nx : LkNext) (wasIn : Prop) : Prop where
  id : o2.id = o1.id
  owner : o2.owner = o1.owner
  pre : o2.pre = o1.pre
  alive : o2.alive = o1.alive
  seen : o2.seen = o1.seen
  nofront : o2.nofront = o1.nofront
  pos : o2.pos = nx.pos
  isIn : o2.isIn → wasIn
  leaving : ¬ o2.leaving

theorem Put.same {o1 o2 : LkObj} {nx : LkNext} {w : Prop} (P : Put o1 o2 nx w) (o : LkObj)
    (h : o = o1) : Put o o2 nx w := h ▸ P

/-- Moving on without any change. -/
theorem ObjOk.put {s : LkSys} {c : Nat} {o o2 : LkObj} {nx : LkNext} (O : ObjOk s c o)
    (P : Put o o2 nx o.isIn) (hl : ¬ o.leaving)
    (h1 : nx.pos ≠ some .own) (h2 : ∀ r l, nx.pos = some (.list2 r l) → ∃ r l, o.pos = some (.list2 r l))
    (h3 : nx.pos = some .giveUp ↔ o.pos = some .giveUp)
    (h4 : ∀ p r, nx.pos = some (.watch p r) → o.watching) : ObjOk s c o2 := by
  have w : o2.watching → o.watching := by
    rintro (⟨p, r, h⟩ | h)
    · exact h4 p r (P.pos ▸ h)
    · exact .inr (h3.1 (P.pos ▸ h))
  have hdel : o2.deleting ↔ o.deleting := by
    constructor
    · rintro (h | h)
      · exact absurd h.1 P.leaving
      · exact .inr (h3.1 (P.pos ▸ h))
    · rintro (h | h)
      · exact absurd h.1 hl
      · exact .inr (P.pos.trans (h3.2 h))
  refine O.move P.pre P.alive (P.nofront.trans O.front) (Nat.le_of_eq P.seen.symm) (P.seen ▸ O.seen)
    ?_ hdel.2 ?_ ?_ ?_
  · intro n hn; rw [P.seen]; exact O.id n (P.id ▸ hn)
  · rintro (h | h | h)
    · exact .inl (P.isIn h)
    · exact absurd (P.pos ▸ h) h1
    · exact .inr (.inr ⟨P.owner ▸ h.1, fun g => hl g.1⟩)
  · intro h n T; rw [P.id]; exact T.kept (w h)
  · rw [P.id]
    rintro (⟨r, l, h⟩ | h)
    · exact O.named (.inl (h2 r l (P.pos ▸ h)))
    · exact O.named (.inr (w h))

theorem small_num {s : LkSys} (D : DirOk s.views s.pres) (small : s.next ≤ 2 ^ 31) {i : Nat}
    {v : Nat × List ZNode} (h : s.views[i]? = some v) : ∀ x ∈ v.2, x.num < 2 ^ 31 := fun x hx =>
  Nat.lt_of_lt_of_le (Nat.lt_of_lt_of_le (D.num i v h x hx) (D.last_mono h).1) small

/-- The second listing. -/
theorem decide_ok {s : LkSys} {c i : Nat} {l old : List ZNode} (I : LkInv s)
    (hp : ∃ r m, (s.objs c).pos = some (.list2 r m)) (hl : ¬ (s.objs c).leaving)
    (small : s.next ≤ 2 ^ 31) (hs : s.shows c i l = true) (t : LkSys) (nx : LkNext)
    (e : lkDecide (s.upd c fun o => { o with seen := i }) c (if l = [] then old else l) = (t, nx))
    (o2 : LkObj) (P : Put (t.objs c) o2 nx (s.objs c).isIn) : LkBut t c ∧ ObjOk t c o2 := by
  obtain ⟨ha, hi, v, hv, hlv⟩ := LkSys.shows_iff hs
  have O := I.obj c
  have D := I.dir
  have hd : ¬ (s.objs c).deleting := by
    obtain ⟨r, m, hp⟩ := hp
    rintro (h | h)
    · exact hl h.1
    · rw [hp] at h; cases h
  obtain ⟨me, hme⟩ : ∃ me, (s.objs c).id = some me := by
    cases e : (s.objs c).id with
    | none => exact absurd e (O.named (.inl hp))
    | some me => exact ⟨me, rfl⟩
  obtain ⟨here, shown⟩ := O.mine_shown D hme ha hd
  have hmv := shown i v hi hv
  have hml : me ∈ l := (hlv me).2 hmv.1
  have hne : l ≠ [] := by intro h; rw [h] at hml; cases hml
  have low : ∀ x ∈ l, x.num < 2 ^ 31 := fun x hx => small_num D small hv x ((hlv x).1 hx)
  rw [if_neg hne] at e
  unfold lkDecide at e
  have hsm : ∀ (o3 : LkObj) (j : Nat), Put (s.upd c (fun o => { o with seen := i }) |>.objs c) o3 (.ret true) (s.objs c).isIn →
      ObjOk s c o3 := by
    intro o3 _ Q
    rw [lkUpd_self] at Q
    refine O.move Q.pre Q.alive (Q.nofront.trans O.front) (Q.seen ▸ hi) (Q.seen ▸ lt_of_view hv)
      ?_ ?_ ?_ ?_ ?_
    · intro n hn
      obtain ⟨h1, j, w, hj, hw, hm⟩ := O.id n (Q.id ▸ hn)
      exact ⟨h1, j, w, Nat.le_trans hj (Q.seen ▸ hi), hw, hm⟩
    · exact fun h => absurd h hd
    · rintro (h | h | h)
      · exact .inl (Q.isIn h)
      · rw [Q.pos] at h; cases h
      · exact .inr (.inr ⟨Q.owner ▸ h.1, fun g => hl g.1⟩)
    · rintro (⟨p, r, h⟩ | h) <;> (rw [Q.pos] at h; cases h)
    · rintro (⟨r, l, h⟩ | ⟨p, r, h⟩ | h) <;> (rw [Q.pos] at h; cases h)
  cases ef : zkFront l with
  | none =>
    cases l with
    | nil => exact absurd rfl hne
    | cons a l =>
      simp only [zkFront] at ef
      cases e2 : zkFront l with
      | none => rw [e2] at ef; cases ef
      | some b => rw [e2] at ef; simp only at ef; split at ef <;> cases ef
  | some f =>
    rw [ef] at e
    simp only [lkUpd_self, hme] at e
    cases el : zkFloor me l with
    | none =>
      rw [el] at e
      simp only at e
      have none_before := zkFloor_none el
      by_cases hf : f = me
      · rw [if_pos hf] at e
        cases e
        refine ⟨(I.but c).upd _, ObjOk.congr ?_ (rfl : _ = s.views) rfl rfl⟩
        rw [lkUpd_self] at P
        constructor
        · intro k hk; exact O.pre k (P.pre ▸ hk)
        · intro n hn
          rw [P.pre, P.seen]
          obtain ⟨h1, j, w, hj, hw, hm⟩ := O.id n (P.id ▸ hn)
          exact ⟨h1, j, w, Nat.le_trans hj hi, hw, hm⟩
        · rw [P.seen]; exact lt_of_view hv
        · intro m hm hk; exact absurd (O.sent m hm (P.pre ▸ hk)) hd
        · intro k hk h1 _; exact O.still k (P.pre ▸ hk) ha hd
        · intro _ _
          refine ⟨me, O.pre _ (O.id me hme).1, here, ?_, ?_, ?_⟩
          · intro j w hj hw x hx
            rw [P.seen] at hj
            simp only at hj
            apply Classical.byContradiction
            intro hlt
            have hxv := (D.mono i j v w hj hv hw).2 x hx (by omega)
            have := none_before x ((hlv x).2 hxv)
            rw [before_small (low x ((hlv x).2 hxv)) (low me hml)] at this
            simp only [decide_eq_false_iff_not] at this
            omega
          · intro h; exact hd (O.sent me h (O.id me hme).1)
          · rintro (⟨p, r, h⟩ | h) <;> (rw [P.pos] at h; cases h)
        · rintro (⟨r, l, h⟩ | ⟨p, r, h⟩ | h) <;> (rw [P.pos] at h; cases h)
        · exact P.nofront.trans O.front
      · rw [if_neg hf] at e
        cases e
        exact ⟨(I.but c).upd _, (hsm o2 0 P).congr rfl rfl rfl⟩
    | some p =>
      rw [el] at e
      cases e
      have hpm := zkFloor_some el
      refine ⟨(I.but c).upd _, ObjOk.congr ?_ (rfl : _ = s.views) rfl rfl⟩
      rw [lkUpd_self] at P
      refine O.move P.pre P.alive (P.nofront.trans O.front) (P.seen ▸ hi) (P.seen ▸ lt_of_view hv)
        ?_ ?_ ?_ ?_ ?_
      · intro n hn
        obtain ⟨h1, j, w, hj, hw, hm⟩ := O.id n (P.id ▸ hn)
        exact ⟨h1, j, w, Nat.le_trans hj (P.seen ▸ hi), hw, hm⟩
      · exact fun h => absurd h hd
      · rintro (h | h | h)
        · exact .inl (P.isIn h)
        · rw [P.pos] at h; cases h
        · exact .inr (.inr ⟨P.owner ▸ h.1, fun g => hl g.1⟩)
      · intro _ n T
        rw [P.id]
        simp only
        rw [hme]
        intro hh
        cases hh
        have := T.first i v hi hv p ((hlv p).1 hpm.1)
        have hb := hpm.2
        rw [before_small (low p hpm.1) (low me hml)] at hb
        simp only [decide_eq_true_eq] at hb
        omega
      · intro _; rw [P.id]; simp only; rw [hme]; simp

/-! ### Requests -/

theorem LkBut.create {s : LkSys} {c : Nat} (I : LkBut s c) (d k skip : Nat) (hk : k < s.pres.length) :
    LkBut (s.exec (.create d k skip)) c := by
  unfold LkSys.exec
  simp only
  split
  · exact ⟨I.dir.push_add k skip hk, fun x hx => (I.obj x hx).push_add I.dir k skip, I.made⟩
  · exact I

theorem ObjOk.create {s : LkSys} {c : Nat} {o : LkObj} (D : DirOk s.views s.pres) (O : ObjOk s c o)
    (d k skip : Nat) : ObjOk (s.exec (.create d k skip)) c o := by
  unfold LkSys.exec
  simp only
  split
  · exact O.push_add D k skip
  · exact O

theorem ObjOk.delete {s : LkSys} {c : Nat} {o : LkObj} (O : ObjOk s c o) (m : ZNode)
    (del : o.pre = some m.who → o.deleting)
    (hold : ∀ n, o.claims → o.alive = true → Ticket s c o n → n ≠ m) :
    ObjOk (s.exec (.delete m)) c o := by
  refine O.push_sub _ (fun x hx => (List.mem_filter.1 hx).1) (fun x hx hp _ hd => ?_)
    (fun n hc ha T => ?_)
  · refine List.mem_filter.2 ⟨hx, ?_⟩
    simp only [ne_eq, decide_not, Bool.not_eq_eq_eq_not, Bool.not_true, decide_eq_false_iff_not]
    rintro rfl; exact hd (del hp)
  · refine List.mem_filter.2 ⟨T.here, ?_⟩
    simp only [ne_eq, decide_not, Bool.not_eq_eq_eq_not, Bool.not_true, decide_eq_false_iff_not]
    exact hold n hc ha T

/-- A removal by `c` of a node of its own does not disturb others. -/
theorem LkBut.delete {s : LkSys} {c : Nat} (I : LkBut s c) (m : ZNode) (hm : s.pres[m.who]? = some c) :
    LkBut (s.exec (.delete m)) c :=
  ⟨I.dir.push_sub _ (fun _ hx => (List.mem_filter.1 hx).1), fun d hd =>
    (I.obj d hd).delete m
      (fun h => by have := (I.obj d hd).pre _ h; rw [hm] at this; cases this; exact absurd rfl hd)
      (fun n _ _ T h => by have := T.mine; rw [h, hm] at this; cases this; exact hd rfl), I.made⟩

theorem LkBut.fly_delete {s : LkSys} {c : Nat} (I : LkBut s c) (m : ZNode)
    (hm : s.pres[m.who]? = some c) : LkBut { s with flying := s.flying ++ [.delete m] } c :=
  ⟨I.dir, fun d hd =>
    (I.obj d hd).flying_delete m
      (fun h => by have := (I.obj d hd).pre _ h; rw [hm] at this; cases this; exact absurd rfl hd)
      (fun n _ _ T h => by have := T.mine; rw [h, hm] at this; cases this; exact hd rfl),
    fun q h => by
      rcases List.mem_append.1 h with h | h
      · exact I.made q h
      · rw [List.mem_singleton] at h; cases h; exact lt_of_view hm⟩

theorem LkBut.fly_create {s : LkSys} {c : Nat} (I : LkBut s c) (d k skip : Nat) (hk : k < s.pres.length) :
    LkBut { s with flying := s.flying ++ [.create d k skip] } c :=
  ⟨I.dir, fun x hx => (I.obj x hx).flying_sub _ (fun m h => by
      rcases List.mem_append.1 h with h | h
      · exact h
      · rw [List.mem_singleton] at h; cases h),
    fun q h => by
      rcases List.mem_append.1 h with h | h
      · exact I.made q h
      · rw [List.mem_singleton] at h; cases h; exact hk⟩

/-- The removal of the object's own node. -/
theorem unlock_ok {s t : LkSys} {c : Nat} {a : ZAns} {b : Bool} (I : LkInv s)
    (hd : (s.objs c).deleting) (hw : (s.objs c).claims → (s.objs c).watching)
    (hn : (s.objs c).id ≠ none)
    (e : s.unlockCall c a = (t, b)) :
    LkBut t c ∧
    (b = false → ObjOk t c (s.objs c) ∧ t.objs c = s.objs c) ∧
    (b = true → t.objs c = (s.objs c).reset ∧ ∀ o2, o2.id = none → o2.pre = none → o2.owner = false →
      o2.alive = (s.objs c).alive → o2.seen = (s.objs c).seen → o2.nofront = (s.objs c).nofront →
      o2.pos = none → (o2.isIn → (s.objs c).isIn) → ObjOk t c o2) := by
  have O := I.obj c
  obtain ⟨n, hme⟩ : ∃ n, (s.objs c).id = some n := by
    cases e : (s.objs c).id with
    | none => exact absurd e hn
    | some n => exact ⟨n, rfl⟩
  have hpre := (O.id n hme).1
  have hpn := O.pre _ hpre
  have hd2 : (s.objs c).pre = some n.who → (s.objs c).deleting := fun _ => hd
  have ho : ∀ m, (s.objs c).claims → (s.objs c).alive = true → Ticket s c (s.objs c) m → m ≠ n :=
    fun m h _ T hmn => T.kept (hw h) (hmn ▸ hme)
  have same : LkBut s c ∧ ((false = false) → ObjOk s c (s.objs c) ∧ s.objs c = s.objs c) :=
    ⟨I.but c, fun _ => ⟨O, rfl⟩⟩
  unfold LkSys.unlockCall at e
  rw [hme] at e
  simp only at e
  cases a with
  | fail => cases e; exact ⟨same.1, same.2, fun h => by cases h⟩
  | lost done =>
    simp only [LkSys.lose, Prod.mk.injEq] at e
    obtain ⟨e, rfl⟩ := e
    split at e
    · subst e
      refine ⟨(I.but c).delete n hpn, fun _ => ⟨?_, rfl⟩, fun h => by cases h⟩
      exact O.delete n hd2 ho
    · subst e
      refine ⟨(I.but c).fly_delete n hpn, fun _ => ⟨?_, rfl⟩, fun h => by cases h⟩
      exact O.flying_delete n hd2 ho
  | ok i l =>
    simp only at e
    split at e
    · cases e
      refine ⟨((I.but c).delete n hpn).upd _, (fun h => by cases h), fun _ => ⟨?_, ?_⟩⟩
      · rw [lkUpd_self]; rfl
      · intro o2 h1 h2 h3 h4 h5 h6 h7 h8
        have O2 := O.delete n hd2 ho
        refine ObjOk.congr (s := s.exec (.delete n)) ?_ rfl rfl rfl
        constructor
        · intro k hk; rw [h2] at hk; cases hk
        · intro m hm; rw [h1] at hm; cases hm
        · rw [h5]; exact O2.seen
        · intro m _ hk; rw [h2] at hk; cases hk
        · intro k hk; rw [h2] at hk; cases hk
        · intro hc ha
          have hin : o2.isIn := by
            rcases hc with h | h | h
            · exact h
            · rw [h7] at h; cases h
            · rw [h3] at h; cases h.1
          obtain ⟨m, T⟩ := O2.lock (.inl (h8 hin)) (h4 ▸ ha)
          refine ⟨m, T.mine, T.here, fun i v hi => T.first i v (h5 ▸ hi), T.safe, fun _ => ?_⟩
          rw [h1]; exact (fun h => by cases h)
        · rintro (⟨r, l, h⟩ | ⟨p, r, h⟩ | h) <;> (rw [h7] at h; cases h)
        · exact h6.trans O.front
    · cases e; exact ⟨same.1, same.2, fun h => by cases h⟩

/-! ### A whole call -/

/-- The state in which a node is created: a prefix has been drawn. -/
def lkDraw (s : LkSys) (c : Nat) : LkSys :=
  if (s.objs c).pre.isSome then s else
    { s.upd c (fun o => { o with pre := some s.pres.length }) with pres := s.pres ++ [c] }

theorem draw_ok {s : LkSys} {c : Nat} (I : LkInv s) :
    LkInv (lkDraw s c) ∧ (lkDraw s c).objs c = { s.objs c with pre := some ((s.objs c).pre.getD s.pres.length) } ∧
    (lkDraw s c).pres[(s.objs c).pre.getD s.pres.length]? = some c ∧
    (lkDraw s c).views = s.views ∧ (lkDraw s c).flying = s.flying := by
  unfold lkDraw
  cases e : (s.objs c).pre with
  | some k =>
    simp only [Option.isSome_some, if_true, Option.getD_some]
    refine ⟨I, ?_, (I.obj c).pre k e, trivial, trivial⟩
    rw [← e]
  | none =>
    simp only [Option.isSome_none, Bool.false_eq_true, if_false, Option.getD_none]
    have O := I.obj c
    have hid : (s.objs c).id = none := by
      cases h : (s.objs c).id with
      | none => rfl
      | some n => have := (O.id n h).1; rw [e] at this; cases this
    refine ⟨⟨I.dir.pres_add c, ?_, ?_⟩, ?_, ?_, rfl, rfl⟩
    · intro d
      by_cases h : d = c
      · subst h
        have P := O.pres_add d
        have eo : ({ s.upd d (fun o => { o with pre := some s.pres.length }) with pres := s.pres ++ [d] } : LkSys).objs d =
            { s.objs d with pre := some s.pres.length } := by simp [LkSys.upd]
        rw [eo]
        refine ObjOk.congr (s := { s with pres := s.pres ++ [d] }) ?_ rfl rfl rfl
        have hno : ∀ (i : Nat) (v : Nat × List ZNode), s.views[i]? = some v → ∀ x ∈ v.2,
            x.who ≠ s.pres.length := fun i v hv x hx => Nat.ne_of_lt (I.dir.who i v hv x hx)
        constructor
        · intro k hk; cases hk; simp
        · intro n hn; simp only [hid] at hn; cases hn
        · exact P.seen
        · intro m hm hk
          have := I.made _ hm
          simp only [Option.some.injEq] at hk
          simp only [ZReq.who] at this; omega
        · intro k hk _ _ i v hv x hx hw
          cases hk
          exact absurd hw (hno i v hv x hx)
        · intro hc ha
          obtain ⟨n, T⟩ := P.lock hc ha
          exact ⟨n, T.mine, T.here, T.first, T.safe, T.kept⟩
        · exact P.named
        · exact P.front
      · have eo : ({ s.upd c (fun o => { o with pre := some s.pres.length }) with pres := s.pres ++ [c] } : LkSys).objs d =
            s.objs d := by simp [LkSys.upd, h]
        rw [eo]
        exact ((I.obj d).pres_add c).congr rfl rfl rfl
    · intro q hq
      have := I.made q hq
      simp only [List.length_append, List.length_singleton]; omega
    · exact lkUpd_self s c _
    · simp

theorem lockCall_ok {s : LkSys} {c : Nat} {again : Bool} {a : ZAns} {p : LkAt} (I : LkInv s)
    (hp : (s.objs c).pos = some p) (hl : ¬ (s.objs c).leaving) (small : s.next ≤ 2 ^ 31)
    {t : LkSys} {nx : LkNext} (e : s.lockCall c again a p = (t, nx)) (o2 : LkObj)
    (P : Put (t.objs c) o2 nx (s.objs c).isIn) : LkBut t c ∧ ObjOk t c o2 := by
  have O := I.obj c
  have D := I.dir
  have npos : ∀ q, q ≠ p → (s.objs c).pos ≠ some q := fun q hq h => by
    rw [hp] at h; cases h; exact hq rfl
  -- nothing but the position changes
  have plain : ∀ (nx' : LkNext), Put (s.objs c) o2 nx' (s.objs c).isIn → nx'.pos ≠ some .own →
      (∀ r l, nx'.pos = some (.list2 r l) → ∃ r l, (s.objs c).pos = some (.list2 r l)) →
      (nx'.pos = some .giveUp ↔ (s.objs c).pos = some .giveUp) →
      (∀ p r, nx'.pos = some (.watch p r) → (s.objs c).watching) → ObjOk s c o2 :=
    fun nx' P h1 h2 h3 h4 => O.put P hl h1 h2 h3 h4
  -- back to the caller
  have still : o2.id = (s.objs c).id → o2.pre = (s.objs c).pre → o2.alive = (s.objs c).alive →
      o2.seen = (s.objs c).seen → o2.nofront = (s.objs c).nofront → (p = .giveUp → False) →
      (o2.pos = none ∨ False) → (o2.claims → (s.objs c).claims) → ObjOk s c o2 := by
    intro g1 g2 g3 g4 g5 g6 g7 g8
    have g7 : o2.pos = none := g7.elim (fun h => h) False.elim
    refine O.move g2 g3 (g5.trans O.front) (Nat.le_of_eq g4.symm) (g4 ▸ O.seen) ?_ ?_ g8 ?_ ?_
    · intro n hn; rw [g4]; exact O.id n (g1 ▸ hn)
    · rintro (h | h)
      · exact absurd h.1 hl
      · rw [hp] at h; cases h; exact (g6 rfl).elim
    · rintro (⟨p, r, h⟩ | h) <;> (rw [g7] at h; cases h)
    · rintro (⟨r, l, h⟩ | ⟨p, r, h⟩ | h) <;> (rw [g7] at h; cases h)
  have hbegin : lkBegin again (s.objs c) = .ret true ∨ lkBegin again (s.objs c) = .go (.list1 2) := by
    unfold lkBegin; split
    · exact .inl rfl
    · exact .inr rfl
  cases p with
  | parent r =>
    have key : ∀ nx', (nx'.pos = none ∨ ∃ r, nx'.pos = some (.parent r) ∨ nx'.pos = some (.mkParent r) ∨
        nx'.pos = some (.list1 r)) → Put (s.objs c) o2 nx' (s.objs c).isIn → LkBut s c ∧ ObjOk s c o2 := by
      intro nx' h Q
      refine ⟨I.but c, plain nx' Q ?_ ?_ ?_ ?_⟩
      · rcases h with h | ⟨r, h | h | h⟩ <;> rw [h] <;> simp
      · intro r l g; rcases h with h | ⟨r, h | h | h⟩ <;> (rw [h] at g; cases g)
      · rw [hp]; rcases h with h | ⟨r, h | h | h⟩ <;> rw [h] <;> simp
      · intro r l g; rcases h with h | ⟨r, h | h | h⟩ <;> (rw [h] at g; cases g)
    unfold LkSys.lockCall at e
    cases a with
    | ok i l =>
      simp only at e
      split at e
      · cases e; exact key _ (.inr ⟨_, .inl rfl⟩) P
      · split at e
        · cases e
          rcases hbegin with h | h
          · rw [h] at P; exact key _ (.inl rfl) P
          · rw [h] at P; exact key _ (.inr ⟨_, .inr (.inr rfl)⟩) P
        · split at e
          · cases e; exact key _ (.inl rfl) P
          · cases e; exact key _ (.inr ⟨_, .inr (.inl rfl)⟩) P
    | lost d =>
      simp only at e
      split at e
      · cases e; exact key _ (.inl rfl) P
      · cases e; exact key _ (.inr ⟨_, .inl rfl⟩) P
    | fail => cases e; exact key _ (.inl rfl) P
  | mkParent r =>
    have key : ∀ (b : Bool) nx', (nx'.pos = none ∨ ∃ r, nx'.pos = some (.parent r) ∨
        nx'.pos = some (.mkParent r) ∨
        nx'.pos = some (.list1 r)) → Put (s.objs c) o2 nx' (s.objs c).isIn →
        LkBut { s with dir := b } c ∧ ObjOk { s with dir := b } c o2 := by
      intro b nx' h Q
      refine ⟨⟨I.dir, fun d _ => (I.obj d).congr rfl rfl rfl, I.made⟩,
        (plain nx' Q ?_ ?_ ?_ ?_).congr rfl rfl rfl⟩
      · rcases h with h | ⟨r, h | h | h⟩ <;> rw [h] <;> simp
      · intro r l g; rcases h with h | ⟨r, h | h | h⟩ <;> (rw [h] at g; cases g)
      · rw [hp]; rcases h with h | ⟨r, h | h | h⟩ <;> rw [h] <;> simp
      · intro r l g; rcases h with h | ⟨r, h | h | h⟩ <;> (rw [h] at g; cases g)
    unfold LkSys.lockCall at e
    cases a with
    | ok i l =>
      simp only at e
      split at e
      · cases e; exact key s.dir _ (.inr ⟨_, .inr (.inl rfl)⟩) P
      · split at e
        · cases e; exact key s.dir _ (.inl rfl) P
        · cases e
          rcases hbegin with h | h
          · rw [h] at P; exact key _ _ (.inl rfl) P
          · rw [h] at P; exact key _ _ (.inr ⟨_, .inr (.inr rfl)⟩) P
    | lost d =>
      simp only at e
      split at e
      · cases e; exact key _ _ (.inl rfl) P
      · cases e; exact key _ _ (.inr ⟨_, .inl rfl⟩) P
    | fail => cases e; exact key s.dir _ (.inl rfl) P
  | list1 r =>
    have key : ∀ nx', (nx'.pos = none ∨ ∃ r, nx'.pos = some (.list1 r)) →
        Put (s.objs c) o2 nx' (s.objs c).isIn → LkBut s c ∧ ObjOk s c o2 := by
      intro nx' h Q
      refine ⟨I.but c, plain nx' Q ?_ ?_ ?_ ?_⟩
      · rcases h with h | ⟨r, h⟩ <;> rw [h] <;> simp
      · intro r l g; rcases h with h | ⟨r, h⟩ <;> (rw [h] at g; cases g)
      · rw [hp]; rcases h with h | ⟨r, h⟩ <;> rw [h] <;> simp
      · intro r l g; rcases h with h | ⟨r, h⟩ <;> (rw [h] at g; cases g)
    unfold LkSys.lockCall at e
    cases a with
    | ok i l =>
      simp only at e
      split at e
      · rename_i hs
        cases e
        obtain ⟨ha, hi, v, hv, hlv⟩ := LkSys.shows_iff hs
        refine ⟨(I.but c).upd _, ObjOk.congr (s := s) ?_ rfl rfl rfl⟩
        rw [lkUpd_self] at P
        have hd : ¬ (s.objs c).deleting := by
          rintro (h | h)
          · exact hl h.1
          · rw [hp] at h; cases h
        have hnp : (∃ r l, o2.pos = some (.list2 r l)) ∧ lkLookup (s.objs c).pre l ≠ none ∨
            (∃ l, o2.pos = some (.make l)) := by
          rw [P.pos]
          cases hk : lkLookup (s.objs c).pre l with
          | none => right; exact ⟨l, by simp [LkNext.pos]⟩
          | some m => left; exact ⟨⟨2, l, by simp [LkNext.pos]⟩, by simp⟩
        have hnw : ¬ o2.watching := by
          rintro (⟨p, r, h⟩ | h) <;> rcases hnp with ⟨⟨r, l, g⟩, _⟩ | ⟨l, g⟩ <;> (rw [h] at g; cases g)
        refine O.move P.pre P.alive (P.nofront.trans O.front) (P.seen ▸ hi) (P.seen ▸ lt_of_view hv)
          ?_ ?_ ?_ ?_ ?_
        · intro n hn
          rw [P.id] at hn
          have := lkLookup_some hn
          refine ⟨this.2, i, v, ?_, hv, (hlv n).1 this.1⟩
          rw [P.seen]; exact Nat.le_refl _
        · exact fun h => absurd h hd
        · rintro (h | h | h)
          · exact .inl (P.isIn h)
          · rcases hnp with ⟨⟨r, l, g⟩, _⟩ | ⟨l, g⟩ <;> (rw [h] at g; cases g)
          · exact .inr (.inr ⟨P.owner ▸ h.1, fun g => hl g.1⟩)
        · exact fun h => absurd h hnw
        · rintro (⟨r, m, h⟩ | h)
          · rw [P.id]
            rcases hnp with ⟨_, g⟩ | ⟨l, g⟩
            · exact g
            · rw [h] at g; cases g
          · exact absurd h hnw
      · cases e; exact key _ (.inr ⟨_, rfl⟩) P
    | lost d =>
      simp only at e
      split at e
      · cases e; exact key _ (.inl rfl) P
      · cases e; exact key _ (.inr ⟨_, rfl⟩) P
    | fail => cases e; exact key _ (.inl rfl) P
  | list2 r old =>
    have key : ∀ nx', (nx'.pos = none ∨ ∃ r l, nx'.pos = some (.list2 r l)) →
        Put (s.objs c) o2 nx' (s.objs c).isIn → LkBut s c ∧ ObjOk s c o2 := by
      intro nx' h Q
      refine ⟨I.but c, plain nx' Q ?_ (fun _ _ _ => ⟨r, old, hp⟩) ?_ ?_⟩
      · rcases h with h | ⟨r, l, h⟩ <;> rw [h] <;> simp
      · rw [hp]; rcases h with h | ⟨r, l, h⟩ <;> rw [h] <;> simp
      · intro r l g; rcases h with h | ⟨r, l, h⟩ <;> (rw [h] at g; cases g)
    unfold LkSys.lockCall at e
    cases a with
    | ok i l =>
      simp only at e
      split at e
      · rename_i hs
        exact decide_ok I ⟨r, old, hp⟩ hl small hs t nx e o2 P
      · cases e; exact key _ (.inr ⟨_, _, rfl⟩) P
    | lost d =>
      simp only at e
      split at e
      · cases e; exact key _ (.inl rfl) P
      · cases e; exact key _ (.inr ⟨_, _, rfl⟩) P
    | fail => cases e; exact key _ (.inl rfl) P
  | own =>
    cases e
    refine ⟨(I.but c).upd _, ObjOk.congr (s := s) ?_ rfl rfl rfl⟩
    rw [lkUpd_self] at P
    exact still P.id P.pre P.alive P.seen P.nofront (fun h => by cases h) (.inl P.pos)
      (fun _ => .inr (.inl hp))
  | lose =>
    cases e
    refine ⟨(I.but c).upd _, ObjOk.congr (s := s) ?_ rfl rfl rfl⟩
    rw [lkUpd_self] at P
    refine still P.id P.pre P.alive P.seen P.nofront (fun h => by cases h) (.inl P.pos) ?_
    rintro (h | h | h)
    · exact .inl (P.isIn h)
    · rw [P.pos] at h; cases h
    · rw [P.owner] at h; cases h.1
  | watch q r =>
    have hd : ¬ (s.objs c).deleting := by
      rintro (h | h)
      · exact hl h.1
      · rw [hp] at h; cases h
    have hw : (s.objs c).watching := .inl ⟨q, r, hp⟩
    have up : Put (s.objs c) o2 (.go .giveUp) (s.objs c).isIn → ObjOk s c o2 := by
      intro Q
      refine O.move Q.pre Q.alive (Q.nofront.trans O.front) (Nat.le_of_eq Q.seen.symm) (Q.seen ▸ O.seen)
        ?_ (fun h => absurd h hd) ?_ ?_ ?_
      · intro n hn; rw [Q.seen]; exact O.id n (Q.id ▸ hn)
      · rintro (h | h | h)
        · exact .inl (Q.isIn h)
        · rw [Q.pos] at h; cases h
        · exact .inr (.inr ⟨Q.owner ▸ h.1, fun g => hl g.1⟩)
      · intro _ n T; rw [Q.id]; exact T.kept hw
      · intro _; rw [Q.id]; exact O.named (.inr hw)
    have again : ∀ r, Put (s.objs c) o2 (.go (.watch q r)) (s.objs c).isIn → ObjOk s c o2 := by
      intro r Q
      refine plain _ Q (by simp [LkNext.pos]) (fun _ _ h => by cases h) ?_ (fun _ _ _ => hw)
      rw [hp]; simp [LkNext.pos]
    unfold LkSys.lockCall at e
    cases a with
    | ok i l =>
      simp only at e
      split at e
      · rename_i hs
        cases e
        obtain ⟨ha, hi, v, hv, hlv⟩ := LkSys.shows_iff hs
        refine ⟨(I.but c).upd _, ObjOk.congr (s := s) ?_ rfl rfl rfl⟩
        rw [lkUpd_self] at P
        have hpos : o2.pos = none ∨ o2.pos = some .lose := by
          rw [P.pos]; split
          · exact .inr rfl
          · exact .inl rfl
        have hnw : ¬ o2.watching := by
          rintro (⟨p, r, h⟩ | h) <;> rcases hpos with g | g <;> (rw [h] at g; cases g)
        refine O.move P.pre P.alive (P.nofront.trans O.front) (P.seen ▸ hi) (P.seen ▸ lt_of_view hv)
          ?_ (fun h => absurd h hd) ?_ (fun h => absurd h hnw) ?_
        · intro n hn
          obtain ⟨h1, j, w, hj, hw, hm⟩ := O.id n (P.id ▸ hn)
          exact ⟨h1, j, w, Nat.le_trans hj (P.seen ▸ hi), hw, hm⟩
        · rintro (h | h | h)
          · exact .inl (P.isIn h)
          · rcases hpos with g | g <;> (rw [h] at g; cases g)
          · exact .inr (.inr ⟨P.owner ▸ h.1, fun g => hl g.1⟩)
        · rintro (⟨r, l, h⟩ | h)
          · rcases hpos with g | g <;> (rw [h] at g; cases g)
          · exact absurd h hnw
      · cases e; exact ⟨I.but c, again _ P⟩
    | lost d =>
      simp only at e
      split at e
      · cases e; exact ⟨I.but c, up P⟩
      · cases e; exact ⟨I.but c, again _ P⟩
    | fail => cases e; exact ⟨I.but c, up P⟩
  | make old =>
    obtain ⟨I1, h1, h2, h3, h4⟩ := draw_ok (c := c) I
    obtain ⟨k, hk⟩ : ∃ k, k = (s.objs c).pre.getD s.pres.length := ⟨_, rfl⟩
    rw [← hk] at h1 h2
    have O1 := I1.obj c
    have hd : ¬ ((lkDraw s c).objs c).deleting := by
      rw [h1]
      rintro (h | h)
      · exact hl h.1
      · exact npos .giveUp (by simp) h
    have hl1 : ¬ ((lkDraw s c).objs c).leaving := by rw [h1]; exact hl
    have hpos1 : ((lkDraw s c).objs c).pos = some (.make old) := by rw [h1]; exact hp
    have hin1 : ((lkDraw s c).objs c).isIn ↔ (s.objs c).isIn := by rw [h1]; exact Iff.rfl
    -- afterwards, in a state that has the same object
    have back : ∀ (u : LkSys), ObjOk u c ((lkDraw s c).objs c) →
        Put { (lkDraw s c).objs c with garbage := true } o2 (.ret false) (s.objs c).isIn → ObjOk u c o2 := by
      intro u U Q
      have npos2 : ∀ x, o2.pos ≠ some x := fun x h => by rw [Q.pos] at h; cases h
      refine U.move Q.pre Q.alive (Q.nofront.trans U.front) (Nat.le_of_eq Q.seen.symm) (Q.seen ▸ U.seen)
        ?_ (fun h => absurd h hd) ?_ ?_ ?_
      · intro n hn; rw [Q.seen]; exact U.id n (Q.id ▸ hn)
      · rintro (h | h | h)
        · exact .inl (hin1.2 (Q.isIn h))
        · exact absurd h (npos2 _)
        · exact .inr (.inr ⟨Q.owner ▸ h.1, fun g => hl1 g.1⟩)
      · rintro (⟨p, r, h⟩ | h) <;> exact absurd h (npos2 _)
      · rintro (⟨r, l, h⟩ | ⟨p, r, h⟩ | h) <;> exact absurd h (npos2 _)
    cases a with
    | fail =>
      cases e
      refine ⟨(I.but c).upd _, ObjOk.congr (s := s) ?_ rfl rfl rfl⟩
      rw [lkUpd_self] at P
      refine still P.id P.pre P.alive P.seen P.nofront (fun h => by cases h) (.inl P.pos) ?_
      rintro (h | h | h)
      · exact .inl (P.isIn h)
      · rw [P.pos] at h; cases h
      · exact .inr (.inr ⟨P.owner ▸ h.1, fun g => hl g.1⟩)
    | lost done =>
      have e' : (((lkDraw s c).lose done (.create c k 0)).upd c (fun o => { o with garbage := true }),
          LkNext.ret false) = (t, nx) := by rw [hk]; exact e
      cases e'
      rw [lkUpd_self] at P
      unfold LkSys.lose at P ⊢
      cases done with
      | true =>
        simp only [if_true] at P ⊢
        have eo : ((lkDraw s c).exec (.create c k 0)).objs c = (lkDraw s c).objs c := by
          simp only [LkSys.exec]; split <;> rfl
        rw [eo] at P
        exact ⟨((I1.but c).create c k 0 (lt_of_view h2)).upd _,
          (back _ (O1.create I1.dir c k 0) P).congr rfl rfl rfl⟩
      | false =>
        simp only [Bool.false_eq_true, if_false] at P ⊢
        refine ⟨((I1.but c).fly_create c k 0 (lt_of_view h2)).upd _,
          (back _ (O1.flying_sub _ (fun m h => ?_)) P).congr (t := LkSys.upd _ c _) rfl rfl rfl⟩
        rcases List.mem_append.1 h with h | h
        · exact h
        · rw [List.mem_singleton] at h; cases h
    | ok skip l =>
      have e' : (if (s.objs c).alive then
        (((lkDraw s c).exec (.create c k skip)).upd c (fun o =>
          { o with id := some ⟨s.next + skip, k⟩, seen := s.views.length }), LkNext.go (.list2 2 old))
        else (s, .go (.make old))) = (t, nx) := by rw [hk]; exact e
      split at e'
      · rename_i ha
        cases e'
        rw [lkUpd_self] at P
        have ha1 : ((lkDraw s c).objs c).alive = true := by rw [h1]; exact ha
        have hnx : (lkDraw s c).next = s.next := by simp only [LkSys.next, LkSys.last, h3]
        have eo : ((lkDraw s c).exec (.create c k skip)).objs c = (lkDraw s c).objs c := by
          simp only [LkSys.exec]; split <;> rfl
        have ev : ((lkDraw s c).exec (.create c k skip)).views =
            s.views ++ [((lkDraw s c).next + skip + 1, (lkDraw s c).now ++ [⟨(lkDraw s c).next + skip, k⟩])] := by
          simp only [LkSys.exec, ha1, if_true, LkSys.push, h3]
        rw [eo] at P
        have O2 := O1.create I1.dir c k skip
        refine ⟨((I1.but c).create c k skip (lt_of_view h2)).upd _, ObjOk.congr ?_ (rfl : _ = ((lkDraw s c).exec (.create c k skip)).views) rfl rfl⟩
        have hnw : ¬ o2.watching := by rintro (⟨p, r, h⟩ | h) <;> (rw [P.pos] at h; cases h)
        refine O2.move P.pre P.alive (P.nofront.trans O2.front) ?_ ?_
          ?_ (fun h => absurd h hd) ?_ (fun h => absurd h hnw) ?_
        · rw [P.seen]; have := O1.seen; rw [h3] at this; exact Nat.le_of_lt this
        · rw [P.seen, ev]; simp
        · intro n hn
          rw [P.id] at hn
          simp only [Option.some.injEq] at hn
          subst hn
          refine ⟨by rw [h1], s.views.length,
            ((lkDraw s c).next + skip + 1, (lkDraw s c).now ++ [⟨(lkDraw s c).next + skip, k⟩]), ?_, ?_, ?_⟩
          · rw [P.seen]; exact Nat.le_refl _
          · rw [ev]; simp
          · simp [hnx]
        · rintro (h | h | h)
          · exact .inl (hin1.2 (P.isIn h))
          · rw [P.pos] at h; cases h
          · exact .inr (.inr ⟨P.owner ▸ h.1, fun g => hl1 g.1⟩)
        · intro _; rw [P.id]; simp
      · cases e'
        refine ⟨I.but c, plain _ P (by simp [LkNext.pos]) (fun _ _ h => by cases h) ?_ (fun _ _ h => by cases h)⟩
        rw [hp]; simp [LkNext.pos]
  | giveUp =>
    have hd : (s.objs c).deleting := .inr hp
    unfold LkSys.lockCall at e
    cases eu : s.unlockCall c a with
    | mk u b =>
      obtain ⟨h1, h2, h3⟩ := unlock_ok I hd (fun _ => .inr hp) (O.named (.inr (.inr hp))) eu
      simp only [eu] at e
      cases b with
      | true =>
        cases e
        obtain ⟨g1, g2⟩ := h3 rfl
        rw [g1] at P
        exact ⟨h1, g2 o2 P.id P.pre P.owner P.alive P.seen P.nofront P.pos P.isIn⟩
      | false =>
        cases e
        obtain ⟨g1, g2⟩ := h2 rfl
        rw [g2] at P
        refine ⟨h1, g1.put P hl (by simp [LkNext.pos]) (fun _ _ h => by cases h) ?_ (fun _ _ h => by cases h)⟩
        rw [hp]; simp [LkNext.pos]

/-! ### Runs -/

theorem exec_objs (s : LkSys) (q : ZReq) : (s.exec q).objs = s.objs := by
  cases q with
  | create c k n => simp only [LkSys.exec]; split <;> rfl
  | delete n => rfl

theorem lose_objs (s : LkSys) (d : Bool) (q : ZReq) : (s.lose d q).objs = s.objs := by
  unfold LkSys.lose; split
  · exact exec_objs s q
  · rfl

/-- What a call leaves alone. -/
theorem unlockCall_zk (s : LkSys) (c : Nat) (a : ZAns) (d : Nat) :
    ((s.unlockCall c a).1.objs d).zk = (s.objs d).zk ∧
    ((s.unlockCall c a).1.objs d).user = (s.objs d).user ∧
    ((s.unlockCall c a).1.objs d).alive = (s.objs d).alive ∧
    ((s.unlockCall c a).1.objs d).ret = (s.objs d).ret := by
  unfold LkSys.unlockCall
  split
  · exact ⟨rfl, rfl, rfl, rfl⟩
  · split
    · split
      · simp only [LkSys.upd, exec_objs]
        split <;> exact ⟨rfl, rfl, rfl, rfl⟩
      · exact ⟨rfl, rfl, rfl, rfl⟩
    · simp only [lose_objs]; exact ⟨trivial, trivial, trivial, trivial⟩
    · exact ⟨rfl, rfl, rfl, rfl⟩

theorem lkDecide_keeps (s : LkSys) (c : Nat) (v : List ZNode) (d : Nat) :
    ((lkDecide s c v).1.objs d).zk = (s.objs d).zk ∧
    ((lkDecide s c v).1.objs d).user = (s.objs d).user ∧
    ((lkDecide s c v).1.objs d).alive = (s.objs d).alive ∧
    ((lkDecide s c v).1.objs d).ret = (s.objs d).ret := by
  unfold lkDecide
  split
  · simp only [LkSys.upd]; split <;> exact ⟨rfl, rfl, rfl, rfl⟩
  · split
    · exact ⟨rfl, rfl, rfl, rfl⟩
    · split
      · split <;> exact ⟨rfl, rfl, rfl, rfl⟩
      · exact ⟨rfl, rfl, rfl, rfl⟩

theorem lkUpd_keeps (s : LkSys) (c : Nat) (f : LkObj → LkObj) (d : Nat)
    (h : ∀ o, (f o).zk = o.zk ∧ (f o).user = o.user ∧ (f o).alive = o.alive ∧ (f o).ret = o.ret) :
    ((s.upd c f).objs d).zk = (s.objs d).zk ∧ ((s.upd c f).objs d).user = (s.objs d).user ∧
    ((s.upd c f).objs d).alive = (s.objs d).alive ∧ ((s.upd c f).objs d).ret = (s.objs d).ret := by
  simp only [LkSys.upd]; split
  · exact h _
  · exact ⟨rfl, rfl, rfl, rfl⟩

theorem lkDraw_keeps (s : LkSys) (c d : Nat) :
    ((lkDraw s c).objs d).zk = (s.objs d).zk ∧ ((lkDraw s c).objs d).user = (s.objs d).user ∧
    ((lkDraw s c).objs d).alive = (s.objs d).alive ∧ ((lkDraw s c).objs d).ret = (s.objs d).ret := by
  unfold lkDraw; split
  · exact ⟨rfl, rfl, rfl, rfl⟩
  · exact lkUpd_keeps s c (fun o => { o with pre := some s.pres.length }) d (fun _ => ⟨rfl, rfl, rfl, rfl⟩)

theorem lockCall_keeps (s : LkSys) (c : Nat) (again : Bool) (a : ZAns) (p : LkAt) (d : Nat) :
    ((s.lockCall c again a p).1.objs d).zk = (s.objs d).zk ∧
    ((s.lockCall c again a p).1.objs d).user = (s.objs d).user ∧
    ((s.lockCall c again a p).1.objs d).alive = (s.objs d).alive ∧
    ((s.lockCall c again a p).1.objs d).ret = (s.objs d).ret := by
  cases p with
  | parent r =>
    cases a <;> simp only [LkSys.lockCall] <;> (repeat' split) <;>
      first | exact ⟨rfl, rfl, rfl, rfl⟩ | exact ⟨trivial, trivial, trivial, trivial⟩ | trivial
  | mkParent r =>
    cases a <;> simp only [LkSys.lockCall] <;> (repeat' split) <;>
      first | exact ⟨rfl, rfl, rfl, rfl⟩ | exact ⟨trivial, trivial, trivial, trivial⟩ | trivial
  | list1 r =>
    unfold LkSys.lockCall
    cases a with
    | ok i l =>
      simp only
      split
      · exact lkUpd_keeps s c (fun o => { o with seen := i, id := lkLookup o.pre l }) d (fun _ => ⟨rfl, rfl, rfl, rfl⟩)
      · exact ⟨rfl, rfl, rfl, rfl⟩
    | lost d => simp only; split <;> exact ⟨rfl, rfl, rfl, rfl⟩
    | fail => exact ⟨rfl, rfl, rfl, rfl⟩
  | make old =>
    cases a with
    | ok i l =>
      show ((if (s.objs c).alive then
        (((lkDraw s c).exec (.create c ((s.objs c).pre.getD s.pres.length) i)).upd c (fun o =>
          { o with id := some ⟨s.next + i, (s.objs c).pre.getD s.pres.length⟩, seen := s.views.length }), LkNext.go (.list2 2 old))
        else (s, .go (.make old))).1.objs d).zk = _ ∧ ((if (s.objs c).alive then
        (((lkDraw s c).exec (.create c ((s.objs c).pre.getD s.pres.length) i)).upd c (fun o =>
          { o with id := some ⟨s.next + i, (s.objs c).pre.getD s.pres.length⟩, seen := s.views.length }), LkNext.go (.list2 2 old))
        else (s, .go (.make old))).1.objs d).user = _ ∧ ((if (s.objs c).alive then
        (((lkDraw s c).exec (.create c ((s.objs c).pre.getD s.pres.length) i)).upd c (fun o =>
          { o with id := some ⟨s.next + i, (s.objs c).pre.getD s.pres.length⟩, seen := s.views.length }), LkNext.go (.list2 2 old))
        else (s, .go (.make old))).1.objs d).alive = _ ∧ ((if (s.objs c).alive then
        (((lkDraw s c).exec (.create c ((s.objs c).pre.getD s.pres.length) i)).upd c (fun o =>
          { o with id := some ⟨s.next + i, (s.objs c).pre.getD s.pres.length⟩, seen := s.views.length }), LkNext.go (.list2 2 old))
        else (s, .go (.make old))).1.objs d).ret = _
      split
      · have h := lkUpd_keeps ((lkDraw s c).exec (.create c ((s.objs c).pre.getD s.pres.length) i)) c (fun o =>
          { o with id := some ⟨s.next + i, (s.objs c).pre.getD s.pres.length⟩, seen := s.views.length }) d
          (fun _ => ⟨rfl, rfl, rfl, rfl⟩)
        rw [exec_objs] at h
        have g := lkDraw_keeps s c d
        exact ⟨h.1.trans g.1, h.2.1.trans g.2.1, h.2.2.1.trans g.2.2.1, h.2.2.2.trans g.2.2.2⟩
      · exact ⟨rfl, rfl, rfl, rfl⟩
    | lost b =>
      have h := lkUpd_keeps ((lkDraw s c).lose b (.create c ((s.objs c).pre.getD s.pres.length) 0)) c (fun o =>
          { o with garbage := true }) d (fun _ => ⟨rfl, rfl, rfl, rfl⟩)
      rw [lose_objs] at h
      have g := lkDraw_keeps s c d
      exact ⟨h.1.trans g.1, h.2.1.trans g.2.1, h.2.2.1.trans g.2.2.1, h.2.2.2.trans g.2.2.2⟩
    | fail => exact lkUpd_keeps s c (fun o => { o with garbage := true }) d (fun _ => ⟨rfl, rfl, rfl, rfl⟩)
  | list2 r old =>
    unfold LkSys.lockCall
    cases a with
    | ok i l =>
      simp only
      split
      · have h := lkDecide_keeps (s.upd c fun o => { o with seen := i }) c (if l = [] then old else l) d
        have g := lkUpd_keeps s c (fun o => { o with seen := i }) d (fun _ => ⟨rfl, rfl, rfl, rfl⟩)
        exact ⟨h.1.trans g.1, h.2.1.trans g.2.1, h.2.2.1.trans g.2.2.1, h.2.2.2.trans g.2.2.2⟩
      · exact ⟨rfl, rfl, rfl, rfl⟩
    | lost d => simp only; split <;> exact ⟨rfl, rfl, rfl, rfl⟩
    | fail => exact ⟨rfl, rfl, rfl, rfl⟩
  | own => exact lkUpd_keeps s c (fun o => { o with owner := true }) d (fun _ => ⟨rfl, rfl, rfl, rfl⟩)
  | lose => exact lkUpd_keeps s c (fun o => { o with owner := false }) d (fun _ => ⟨rfl, rfl, rfl, rfl⟩)
  | watch q r =>
    unfold LkSys.lockCall
    cases a with
    | ok i l =>
      simp only
      split
      · exact lkUpd_keeps s c (fun o => { o with seen := i }) d (fun _ => ⟨rfl, rfl, rfl, rfl⟩)
      · exact ⟨rfl, rfl, rfl, rfl⟩
    | lost d => simp only; split <;> exact ⟨rfl, rfl, rfl, rfl⟩
    | fail => exact ⟨rfl, rfl, rfl, rfl⟩
  | giveUp =>
    have h := unlockCall_zk s c a d
    unfold LkSys.lockCall
    cases e : s.unlockCall c a with
    | mk t b => rw [e] at h; cases b <;> exact h

theorem lockCall_zk (s : LkSys) (c : Nat) (again : Bool) (a : ZAns) (p : LkAt) :
    ((s.lockCall c again a p).1.objs c).zk = (s.objs c).zk := (lockCall_keeps s c again a p c).1

/-- The mutex: while the thread of the operation has it, the library thread does not. -/
def LkSys.mutex (s : LkSys) : Prop := ∀ c, (s.objs c).user.locks = true → (s.objs c).zk = none

theorem lkInv_init (d : Bool) : LkInv { dir := d } := by
  constructor
  · constructor
    · simp
    · intro i v h x hx
      have : i = 0 := by have := lt_of_view h; simp at this; exact this
      subst this
      simp only [List.getElem?_cons_zero, Option.some.injEq] at h
      subst h; cases hx
    · intro i v h x hx
      have : i = 0 := by have := lt_of_view h; simp at this; exact this
      subst this
      simp only [List.getElem?_cons_zero, Option.some.injEq] at h
      subst h; cases hx
    · intro i j v w ij hi hj
      have h1 : i = 0 := by have := lt_of_view hi; simp at this; exact this
      have h2 : j = 0 := by have := lt_of_view hj; simp at this; exact this
      subst h1; subst h2
      rw [hi] at hj; cases hj
      exact ⟨Nat.le_refl _, fun x hx _ => hx⟩
    · intro i v h x hx
      have : i = 0 := by have := lt_of_view h; simp at this; exact this
      subst this
      simp only [List.getElem?_cons_zero, Option.some.injEq] at h
      subst h; cases hx
  · intro c
    constructor
    · intro k hk; cases hk
    · intro n hn; cases hn
    · simp
    · intro m hm; cases hm
    · intro k hk; cases hk
    · rintro (h | h | h)
      · exact False.elim h
      · cases h
      · cases h.1
    · rintro (⟨r, l, h⟩ | ⟨p, r, h⟩ | h) <;> cases h
    · rfl
  · intro q hq; cases hq

/-- Only the position, or the phase of the thread of the operation, changes. -/
theorem LkInv.set {s : LkSys} (I : LkInv s) (c : Nat) (f : LkObj → LkObj)
    (hid : (f (s.objs c)).id = (s.objs c).id) (hpre : (f (s.objs c)).pre = (s.objs c).pre)
    (halive : (f (s.objs c)).alive = (s.objs c).alive) (hseen : (f (s.objs c)).seen = (s.objs c).seen)
    (hfront : (f (s.objs c)).nofront = (s.objs c).nofront)
    (hdel : (s.objs c).deleting → (f (s.objs c)).deleting)
    (hclaims : (f (s.objs c)).claims → (s.objs c).claims)
    (hwatch : (f (s.objs c)).watching → (s.objs c).watching)
    (hlist : ∀ r l, (f (s.objs c)).pos = some (.list2 r l) → ∃ r l, (s.objs c).pos = some (.list2 r l)) :
    LkInv (s.upd c f) := by
  have O := I.obj c
  refine ((I.but c).upd f).done ?_
  rw [lkUpd_self]
  refine ObjOk.congr (s := s) ?_ rfl rfl rfl
  refine O.move hpre halive (hfront.trans O.front) (Nat.le_of_eq hseen.symm) (hseen ▸ O.seen) ?_ hdel
    hclaims ?_ ?_
  · intro n hn; rw [hseen]; exact O.id n (hid ▸ hn)
  · intro h n T; rw [hid]; exact T.kept (hwatch h)
  · rw [hid]
    rintro (⟨r, l, h⟩ | h)
    · exact O.named (.inl (hlist r l h))
    · exact O.named (.inr (hwatch h))

theorem lkStep_user {s : LkSys} (I : LkInv s) (mx : s.mutex) (ap : ∀ c, s.apart c) (small : s.next ≤ 2 ^ 31)
    (c : Nat) (a : ZAns) : LkInv (s.userStep c a) := by
  have hz : ∀ p, (s.objs c).user = .checking p → (s.objs c).zk = none := by
    intro p h
    have := ap c
    unfold LkSys.apart at this
    rw [h] at this
    cases e : (s.objs c).zk with
    | none => rfl
    | some q => rw [e] at this; exact this.elim
  unfold LkSys.userStep
  cases hu : (s.objs c).user with
  | locking p =>
    have hzk : (s.objs c).zk = none := mx c (by rw [hu]; rfl)
    have hp : (s.objs c).pos = some p := by simp only [LkObj.pos, hu]
    have hl : ¬ (s.objs c).leaving := by simp only [LkObj.leaving, hu, not_false_eq_true]
    simp only
    cases e : s.lockCall c false a p with
    | mk t nx =>
      have zk := lockCall_zk s c false a p
      rw [e] at zk
      simp only at zk
      have key := fun o2 => lockCall_ok I hp hl small e o2
      cases nx with
      | go q =>
        obtain ⟨h1, h2⟩ := key { t.objs c with user := .locking q }
          ⟨rfl, rfl, rfl, rfl, rfl, rfl, rfl, fun h => False.elim h, fun h => h⟩
        exact (h1.upd _).done (by rw [lkUpd_self]; exact h2.congr rfl rfl rfl)
      | ret b =>
        cases b with
        | true =>
          obtain ⟨h1, h2⟩ := key { t.objs c with user := .locked }
            ⟨rfl, rfl, rfl, rfl, rfl, rfl, by simp only [LkObj.pos, zk, hzk, LkNext.pos], fun h => False.elim h, fun h => h⟩
          exact (h1.upd _).done (by rw [lkUpd_self]; exact h2.congr rfl rfl rfl)
        | false =>
          obtain ⟨h1, h2⟩ := key { t.objs c with user := .failed }
            ⟨rfl, rfl, rfl, rfl, rfl, rfl, by simp only [LkObj.pos, zk, hzk, LkNext.pos], fun h => False.elim h, fun h => h⟩
          exact (h1.upd _).done (by rw [lkUpd_self]; exact h2.congr rfl rfl rfl)
  | checking p =>
    have hzk : (s.objs c).zk = none := hz p hu
    have hp : (s.objs c).pos = some p := by simp only [LkObj.pos, hu]
    have hl : ¬ (s.objs c).leaving := by simp only [LkObj.leaving, hu, not_false_eq_true]
    simp only
    cases e : s.lockCall c false a p with
    | mk t nx =>
      have zk := lockCall_zk s c false a p
      rw [e] at zk
      simp only at zk
      have key := fun o2 => lockCall_ok I hp hl small e o2
      cases nx with
      | go q =>
        obtain ⟨h1, h2⟩ := key { t.objs c with user := .checking q }
          ⟨rfl, rfl, rfl, rfl, rfl, rfl, rfl, fun h => False.elim h, fun h => h⟩
        exact (h1.upd _).done (by rw [lkUpd_self]; exact h2.congr rfl rfl rfl)
      | ret b =>
        obtain ⟨h1, h2⟩ := key { t.objs c with user := .waiting, ret := b }
          ⟨rfl, rfl, rfl, rfl, rfl, rfl, by simp only [LkObj.pos, zk, hzk, LkNext.pos], fun h => False.elim h, fun h => h⟩
        refine ((h1.upd _).upd _).done ?_
        rw [lkUpd_self]
        simp only [lkUpd_self]
        exact h2.congr rfl rfl rfl
  | unlocking =>
    have hzk : (s.objs c).zk = none := mx c (by rw [hu]; rfl)
    have hpos : (s.objs c).pos = none := by simp only [LkObj.pos, hu, hzk]
    have hl : (s.objs c).leaving := by simp only [LkObj.leaving, hu]
    simp only
    cases hid : (s.objs c).id with
    | none =>
      have : s.unlockCall c a = (s, true) := by unfold LkSys.unlockCall; rw [hid]
      rw [this]
      simp only
      have hd : ¬ (s.objs c).deleting := by
        rintro (h | h)
        · exact h.2 hid
        · rw [hpos] at h; cases h
      have hpos2 : LkObj.pos { s.objs c with user := .out } = none := by simp only [LkObj.pos, hzk]
      refine I.set c _ rfl rfl rfl rfl rfl (fun h => absurd h hd) ?_ ?_ ?_
      · rintro (h | h | h)
        · exact False.elim h
        · rw [hpos2] at h; cases h
        · exact .inr (.inr ⟨h.1, fun g => g.2 hid⟩)
      · rintro (⟨p, r, h⟩ | h) <;> (rw [hpos2] at h; cases h)
      · intro r l h; rw [hpos2] at h; cases h
    | some n =>
      have hd : (s.objs c).deleting := .inl ⟨hl, by rw [hid]; simp⟩
      have hc : ¬ (s.objs c).claims := by
        rintro (h | h | h)
        · simp only [LkObj.isIn, hu] at h
        · rw [hpos] at h; cases h
        · exact h.2 ⟨hl, by rw [hid]; simp⟩
      cases e : s.unlockCall c a with
      | mk t b =>
        obtain ⟨h1, h2, h3⟩ := unlock_ok I hd (fun h => absurd h hc) (by rw [hid]; simp) e
        cases b with
        | true =>
          obtain ⟨g1, g2⟩ := h3 rfl
          refine (h1.upd _).done ?_
          rw [lkUpd_self, g1]
          refine (g2 { (s.objs c).reset with user := .out } rfl rfl rfl rfl rfl rfl ?_
            (fun h => False.elim h)).congr rfl rfl rfl
          simp only [LkObj.pos, LkObj.reset, hzk]
        | false =>
          obtain ⟨g1, g2⟩ := h2 rfl
          exact h1.done (by rw [g2]; exact g1)
  | out => exact I
  | locked => exact I
  | waiting => exact I
  | inside => exact I
  | failed => exact I

theorem lkStep_zk {s : LkSys} (I : LkInv s) (mx : s.mutex) (ap : ∀ c, s.apart c) (small : s.next ≤ 2 ^ 31)
    (c : Nat) (a : ZAns) : LkInv (s.zkStep c a) := by
  unfold LkSys.zkStep
  cases hz : (s.objs c).zk with
  | none => exact I
  | some p =>
    have hlk : (s.objs c).user.locks = false := by
      cases h : (s.objs c).user.locks with
      | false => rfl
      | true => have := mx c h; rw [hz] at this; cases this
    have hp : (s.objs c).pos = some p ∧ ¬ (s.objs c).leaving ∧
        ∀ o : LkObj, o.user = (s.objs c).user → o.pos = o.zk ∧ ¬ o.leaving ∧ (o.isIn → (s.objs c).isIn) := by
      have apc := ap c
      unfold LkSys.apart at apc
      rw [hz] at apc
      cases hu : (s.objs c).user with
      | locking q => rw [hu] at hlk; cases hlk
      | unlocking => rw [hu] at hlk; cases hlk
      | checking q => rw [hu] at apc; exact apc.elim
      | out =>
        refine ⟨by simp only [LkObj.pos, hu, hz], by simp only [LkObj.leaving, hu, not_false_eq_true], fun o ho => ?_⟩
        simp [LkObj.pos, LkObj.leaving, LkObj.isIn, ho, hu]
      | locked =>
        refine ⟨by simp only [LkObj.pos, hu, hz], by simp only [LkObj.leaving, hu, not_false_eq_true], fun o ho => ?_⟩
        simp [LkObj.pos, LkObj.leaving, LkObj.isIn, ho, hu]
      | waiting =>
        refine ⟨by simp only [LkObj.pos, hu, hz], by simp only [LkObj.leaving, hu, not_false_eq_true], fun o ho => ?_⟩
        simp [LkObj.pos, LkObj.leaving, LkObj.isIn, ho, hu]
      | inside =>
        refine ⟨by simp only [LkObj.pos, hu, hz], by simp only [LkObj.leaving, hu, not_false_eq_true], fun o ho => ?_⟩
        simp [LkObj.pos, LkObj.leaving, LkObj.isIn, ho, hu]
      | failed =>
        refine ⟨by simp only [LkObj.pos, hu, hz], by simp only [LkObj.leaving, hu, not_false_eq_true], fun o ho => ?_⟩
        simp [LkObj.pos, LkObj.leaving, LkObj.isIn, ho, hu]
    obtain ⟨hp, hl, ho⟩ := hp
    simp only
    cases e : s.lockCall c true a p with
    | mk t nx =>
      have ku := (lockCall_keeps s c true a p c).2.1
      rw [e] at ku
      simp only at ku
      have key := fun o2 => lockCall_ok I hp hl small e o2
      cases nx with
      | go q =>
        have g := ho { t.objs c with zk := some q } ku
        obtain ⟨h1, h2⟩ := key { t.objs c with zk := some q }
          ⟨rfl, rfl, rfl, rfl, rfl, rfl, g.1, g.2.2, g.2.1⟩
        exact (h1.upd _).done (by rw [lkUpd_self]; exact h2.congr rfl rfl rfl)
      | ret b =>
        have g := ho { t.objs c with zk := none } ku
        obtain ⟨h1, h2⟩ := key { t.objs c with zk := none }
          ⟨rfl, rfl, rfl, rfl, rfl, rfl, g.1, g.2.2, g.2.1⟩
        exact (h1.upd _).done (by rw [lkUpd_self]; exact h2.congr rfl rfl rfl)

/-- The phases between calls. -/
def LkUser.rests : LkUser → Bool
  | .out => true
  | .locked => true
  | .waiting => true
  | .inside => true
  | .failed => true
  | _ => false

theorem LkObj.rests_pos {o : LkObj} (h : o.user.rests = true) : o.pos = o.zk ∧ ¬ o.leaving := by
  cases hu : o.user <;> rw [hu] at h <;> first | (simp [LkObj.pos, LkObj.leaving, hu]; done) | cases h

/-- From one phase between calls to another, or into a call. -/
theorem LkInv.phase {s : LkSys} (I : LkInv s) (c : Nat) (f : LkObj → LkObj) (u : LkUser)
    (hf : ∃ r, f (s.objs c) = { s.objs c with user := u, ret := r })
    (h1 : (s.objs c).user.rests = true)
    (h2 : u.rests = true ∨ ((s.objs c).zk = none ∧ ((∃ r, u = .locking (.parent r)) ∨ (∃ r, u = .checking (.parent r)))))
    (h3 : u = .inside → (s.objs c).claims) : LkInv (s.upd c f) := by
  obtain ⟨r0, hf⟩ := hf
  obtain ⟨hp, hl⟩ := LkObj.rests_pos h1
  have hpos : (f (s.objs c)).pos = (s.objs c).pos ∨ ((s.objs c).pos = none ∧ ∃ r, (f (s.objs c)).pos = some (.parent r)) := by
    rw [hf]
    rcases h2 with h | ⟨hz, ⟨r, h⟩ | ⟨r, h⟩⟩
    · left; rw [hp]
      exact (LkObj.rests_pos (o := { s.objs c with user := u, ret := r0 }) h).1
    · right; exact ⟨hp.trans hz, r, by simp only [LkObj.pos, h]⟩
    · right; exact ⟨hp.trans hz, r, by simp only [LkObj.pos, h]⟩
  have hl2 : ¬ (f (s.objs c)).leaving := by
    rw [hf]
    rcases h2 with h | ⟨hz, ⟨r, h⟩ | ⟨r, h⟩⟩
    · exact (LkObj.rests_pos (o := { s.objs c with user := u, ret := r0 }) h).2
    · simp only [LkObj.leaving, h, not_false_eq_true]
    · simp only [LkObj.leaving, h, not_false_eq_true]
  have hq : ∀ q, (∀ r, q ≠ LkAt.parent r) → (f (s.objs c)).pos = some q → (s.objs c).pos = some q := by
    intro q hq h
    rcases hpos with g | ⟨_, r, g⟩
    · rw [← g]; exact h
    · rw [g] at h; cases h; exact absurd rfl (hq r)
  refine I.set c f (by rw [hf]) (by rw [hf]) (by rw [hf]) (by rw [hf]) (by rw [hf]) ?_ ?_ ?_ ?_
  · rintro (h | h)
    · exact absurd h.1 hl
    · rcases hpos with g | ⟨g, _⟩
      · exact .inr (g.trans h)
      · rw [g] at h; cases h
  · rintro (h | h | h)
    · have : u = .inside := by
        rw [hf] at h
        cases hu : u <;> rw [hu] at h <;> first | rfl | exact False.elim h
      exact h3 this
    · exact .inr (.inl (hq _ (by simp) h))
    · refine .inr (.inr ⟨?_, fun g => hl g.1⟩)
      rw [hf] at h; exact h.1
  · rintro (⟨p, r, h⟩ | h)
    · exact .inl ⟨p, r, hq _ (by simp) h⟩
    · exact .inr (hq _ (by simp) h)
  · intro r l h; exact ⟨r, l, hq _ (by simp) h⟩

theorem lkStep_ok {s : LkSys} (I : LkInv s) (mx : s.mutex) (ap : ∀ c, s.apart c) (small : s.next ≤ 2 ^ 31)
    (ev : LkEv) (ap2 : ∀ c, (lkStep s ev).apart c) : LkInv (lkStep s ev) := by
  cases ev with
  | user c a => exact lkStep_user I mx ap small c a
  | zk c a => exact lkStep_zk I mx ap small c a
  | lock c told =>
    simp only [lkStep]
    split
    · rename_i hu hz
      split
      · exact I.phase c _ .failed ⟨_, rfl⟩ (by rw [hu]; rfl) (.inl rfl) (fun h => by cases h)
      · exact I.phase c _ (.locking (.parent 10)) ⟨_, rfl⟩ (by rw [hu]; rfl) (.inr ⟨hz, .inl ⟨_, rfl⟩⟩)
          (fun h => by cases h)
    · exact I
  | await c told =>
    simp only [lkStep]
    split
    · rename_i hu
      split
      · exact I.phase c _ .failed ⟨_, rfl⟩ (by rw [hu]; rfl) (.inl rfl) (fun h => by cases h)
      · exact I.phase c _ .waiting ⟨_, rfl⟩ (by rw [hu]; rfl) (.inl rfl) (fun h => by cases h)
    · exact I
  | timeout c =>
    have ap3 := ap2 c
    simp only [lkStep] at ap3 ⊢
    split
    · rename_i hu ho
      rw [hu, ho] at ap3
      simp only [LkSys.apart, LkSys.setUser, lkUpd_self] at ap3
      have hz : (s.objs c).zk = none := by
        cases h : (s.objs c).zk with
        | none => rfl
        | some q => rw [h] at ap3; exact ap3.elim
      exact I.phase c _ (.checking (.parent 10)) ⟨_, rfl⟩ (by rw [hu]; rfl) (.inr ⟨hz, .inr ⟨_, rfl⟩⟩)
        (fun h => by cases h)
    · exact I
  | wake c =>
    simp only [lkStep]
    split
    · rename_i hu ho
      refine I.phase c _ (if (s.objs c).ret then .inside else .failed) ⟨_, rfl⟩ (by rw [hu]; rfl)
        (.inl (by split <;> rfl)) (fun _ => .inr (.inr ⟨ho, fun g => ?_⟩))
      have := g.1
      simp only [LkObj.leaving, hu] at this
    · exact I
  | unlock c told =>
    simp only [lkStep]
    split
    · rename_i hu hz
      have hp : (s.objs c).pos = none := by simp only [LkObj.pos, hu, hz]
      have hl : ¬ (s.objs c).leaving := by simp only [LkObj.leaving, hu, not_false_eq_true]
      split
      · exact I.phase c _ .failed ⟨_, rfl⟩ (by rw [hu]; rfl) (.inl rfl) (fun h => by cases h)
      · have hp2 : LkObj.pos { s.objs c with user := .unlocking } = none := by simp only [LkObj.pos, hz]
        refine I.set c _ rfl rfl rfl rfl rfl ?_ ?_ ?_ ?_
        · rintro (h | h)
          · exact absurd h.1 hl
          · rw [hp] at h; cases h
        · intro _; left; simp only [LkObj.isIn, hu]
        · rintro (⟨p, r, h⟩ | h) <;> (rw [hp2] at h; cases h)
        · intro r l h; rw [hp2] at h; cases h
    · exact I
  | fire c =>
    have ap3 := ap2 c
    simp only [lkStep] at ap3 ⊢
    split
    · rename_i hz hlk
      rw [hz, hlk] at ap3
      simp only [LkSys.apart, LkSys.setZk, lkUpd_self] at ap3
      have hr : (s.objs c).user.rests = true := by
        cases hu : (s.objs c).user <;> rw [hu] at hlk ap3 <;> first | rfl | exact False.elim ap3 | cases hlk
      obtain ⟨hp, hl⟩ := LkObj.rests_pos hr
      have hp2 : LkObj.pos { s.objs c with zk := some (.parent 10) } = some (.parent 10) :=
        (LkObj.rests_pos (o := { s.objs c with zk := some (.parent 10) }) hr).1
      rw [hz] at hp
      refine I.set c _ rfl rfl rfl rfl rfl ?_ ?_ ?_ ?_
      · rintro (h | h)
        · exact absurd h.1 hl
        · rw [hp] at h; cases h
      · rintro (h | h | h)
        · exact .inl h
        · rw [hp2] at h; cases h
        · exact .inr (.inr h)
      · rintro (⟨p, r, h⟩ | h) <;> (rw [hp2] at h; cases h)
      · intro r l h; rw [hp2] at h; cases h
    · exact I
  | land i =>
    simp only [lkStep]
    cases e : s.flying[i]? with
    | none => exact I
    | some q =>
      have hq : q ∈ s.flying := List.mem_of_getElem? e
      have sub : ∀ x, x ∈ s.flying.eraseIdx i → x ∈ s.flying := fun x hx => List.mem_of_mem_eraseIdx hx
      have hw := I.made q hq
      simp only
      cases q with
      | create c k skip =>
        have I2 : LkInv { s with flying := s.flying.eraseIdx i } :=
          ⟨I.dir, fun d => (I.obj d).flying_sub _ (fun m h => sub _ h), fun q h => I.made q (sub _ h)⟩
        simp only [LkSys.exec]
        split
        · exact ⟨I2.dir.push_add k skip hw, fun d => (I2.obj d).push_add I2.dir k skip, I2.made⟩
        · exact I2
      | delete m =>
        have I2 : LkInv (s.exec (.delete m)) :=
          ⟨I.dir.push_sub _ (fun _ hx => (List.mem_filter.1 hx).1), fun d =>
            (I.obj d).delete m (fun h => (I.obj d).sent m hq h)
              (fun n _ _ T h => T.safe (h ▸ hq)), I.made⟩
        refine ⟨I2.dir, fun d => ?_, fun q h => I.made q (sub _ h)⟩
        exact ((I2.obj d).flying_sub (s.flying.eraseIdx i) (fun m h => sub _ h)).congr rfl rfl rfl
  | expire c =>
    simp only [lkStep]
    have sub : ∀ x ∈ s.now.filter (fun x => decide (s.pres[x.who]? ≠ some c)), x ∈ s.now :=
      fun x hx => (List.mem_filter.1 hx).1
    have stay : ∀ d, d ≠ c → ∀ x ∈ s.now, s.pres[x.who]? = some d →
        x ∈ s.now.filter (fun x => decide (s.pres[x.who]? ≠ some c)) := by
      intro d hd x hx h
      refine List.mem_filter.2 ⟨hx, ?_⟩
      rw [h]; simp [hd]
    have B : LkBut (s.push (s.next, s.now.filter fun x => decide (s.pres[x.who]? ≠ some c))) c :=
      ⟨I.dir.push_sub _ sub, fun d hd => (I.obj d).push_sub _ sub
        (fun x hx hp _ _ => stay d hd x hx ((I.obj d).pre _ hp))
        (fun n _ _ T => stay d hd n T.here T.mine), I.made⟩
    refine (B.upd _).done ?_
    rw [lkUpd_self]
    have O := I.obj c
    constructor
    · exact O.pre
    · intro n hn
      obtain ⟨h1, i, v, hi, hv, hm⟩ := O.id n hn
      refine ⟨h1, i, v, hi, ?_, hm⟩
      simp only [LkSys.upd, LkSys.push, getElem?_push, if_pos (lt_of_view hv)]; exact hv
    · have := O.seen
      simp only [LkSys.upd, LkSys.push, List.length_append, List.length_singleton]; omega
    · exact O.sent
    · intro k hk ha; cases ha
    · intro _ ha; cases ha
    · exact O.named
    · exact O.front

/-! ### The mutex -/

theorem mutex_upd {s : LkSys} (mx : s.mutex) (c : Nat) (f : LkObj → LkObj)
    (h : (f (s.objs c)).user.locks = true → (f (s.objs c)).zk = none) : (s.upd c f).mutex := by
  intro d
  by_cases e : d = c
  · subst e; rw [lkUpd_self]; exact h
  · have : (s.upd c f).objs d = s.objs d := by simp [LkSys.upd, e]
    rw [this]; exact mx d

theorem mutex_of_keeps {s t : LkSys} (mx : s.mutex)
    (h : ∀ d, (t.objs d).zk = (s.objs d).zk ∧ (t.objs d).user = (s.objs d).user) : t.mutex := by
  intro d; rw [(h d).1, (h d).2]; exact mx d

theorem lkStep_mutex {s : LkSys} (mx : s.mutex) (ev : LkEv) : (lkStep s ev).mutex := by
  cases ev with
  | user c a =>
    simp only [lkStep, LkSys.userStep]
    cases hu : (s.objs c).user with
    | locking p =>
      simp only
      have hz := mx c (by rw [hu]; rfl)
      have k := lockCall_keeps s c false a p
      have m := mutex_of_keeps mx (fun d => ⟨(k d).1, (k d).2.1⟩)
      cases e : s.lockCall c false a p with
      | mk t nx =>
        rw [e] at m k
        have hz2 : (t.objs c).zk = none := (k c).1.trans hz
        cases nx with
        | go q => exact mutex_upd m c _ (fun _ => hz2)
        | ret b => cases b <;> exact mutex_upd m c _ (fun _ => hz2)
    | checking p =>
      simp only
      have k := lockCall_keeps s c false a p
      have m := mutex_of_keeps mx (fun d => ⟨(k d).1, (k d).2.1⟩)
      cases e : s.lockCall c false a p with
      | mk t nx =>
        rw [e] at m k
        cases nx with
        | go q => exact mutex_upd m c _ (fun h => by cases h)
        | ret b =>
          refine mutex_upd (mutex_upd m c _ (fun h => by cases h)) c _ ?_
          simp only [lkUpd_self]
          exact (fun h => by cases h)
    | unlocking =>
      simp only
      have hz := mx c (by rw [hu]; rfl)
      have k := unlockCall_zk s c a
      have m := mutex_of_keeps mx (fun d => ⟨(k d).1, (k d).2.1⟩)
      cases e : s.unlockCall c a with
      | mk t b =>
        rw [e] at m k
        cases b with
        | true => exact mutex_upd m c _ (fun h => by cases h)
        | false => exact m
    | out => exact mx
    | locked => exact mx
    | waiting => exact mx
    | inside => exact mx
    | failed => exact mx
  | zk c a =>
    simp only [lkStep, LkSys.zkStep]
    cases hz : (s.objs c).zk with
    | none => exact mx
    | some p =>
      simp only
      have k := lockCall_keeps s c true a p
      have m := mutex_of_keeps mx (fun d => ⟨(k d).1, (k d).2.1⟩)
      cases e : s.lockCall c true a p with
      | mk t nx =>
        rw [e] at m k
        have hlk : (t.objs c).user.locks = false := by
          rw [(k c).2.1]
          cases h : (s.objs c).user.locks with
          | false => rfl
          | true => have := mx c h; rw [hz] at this; cases this
        cases nx with
        | go q => exact mutex_upd m c _ (fun h => by simp only [hlk] at h; cases h)
        | ret b => exact mutex_upd m c _ (fun _ => rfl)
  | lock c told =>
    simp only [lkStep]
    split
    · rename_i hu hz
      split
      · exact mutex_upd mx c _ (fun h => by cases h)
      · exact mutex_upd mx c _ (fun _ => hz)
    · exact mx
  | await c told =>
    simp only [lkStep]
    split
    · split
      · exact mutex_upd mx c _ (fun h => by cases h)
      · exact mutex_upd mx c _ (fun h => by cases h)
    · exact mx
  | timeout c =>
    simp only [lkStep]
    split
    · exact mutex_upd mx c _ (fun h => by cases h)
    · exact mx
  | wake c =>
    simp only [lkStep]
    split
    · refine mutex_upd mx c _ (fun h => ?_)
      simp only at h
      split at h <;> cases h
    · exact mx
  | unlock c told =>
    simp only [lkStep]
    split
    · rename_i hu hz
      split
      · exact mutex_upd mx c _ (fun h => by cases h)
      · exact mutex_upd mx c _ (fun _ => hz)
    · exact mx
  | fire c =>
    simp only [lkStep]
    split
    · rename_i hz hlk
      exact mutex_upd mx c _ (fun h => by simp only [hlk] at h; cases h)
    · exact mx
  | land i =>
    simp only [lkStep]
    split
    · refine mutex_of_keeps mx (fun d => ?_)
      rw [exec_objs]; exact ⟨rfl, rfl⟩
    · exact mx
  | expire c =>
    simp only [lkStep]
    refine mutex_upd (s := s.push _) mx c _ (fun h => ?_)
    exact mx c h

/-! ### Numbers -/

theorem push_next (s : LkSys) (n : Nat) (l : List ZNode) (h : s.next ≤ n) : s.next ≤ (s.push (n, l)).next := by
  rw [(push_now s (n, l)).2]; exact h

theorem exec_next (s : LkSys) (q : ZReq) : s.next ≤ (s.exec q).next := by
  cases q with
  | create c k n =>
    simp only [LkSys.exec]; split
    · exact push_next s _ _ (by omega)
    · exact Nat.le_refl _
  | delete n => exact push_next s _ _ (Nat.le_refl _)

theorem lose_next (s : LkSys) (d : Bool) (q : ZReq) : s.next ≤ (s.lose d q).next := by
  unfold LkSys.lose; split
  · exact exec_next s q
  · exact Nat.le_refl _

theorem lkDraw_next (s : LkSys) (c : Nat) : (lkDraw s c).next = s.next := by
  unfold lkDraw; split <;> rfl

theorem unlockCall_next (s : LkSys) (c : Nat) (a : ZAns) : s.next ≤ (s.unlockCall c a).1.next := by
  unfold LkSys.unlockCall
  split
  · exact Nat.le_refl _
  · split
    · split
      · exact exec_next s _
      · exact Nat.le_refl _
    · exact lose_next s _ _
    · exact Nat.le_refl _

theorem lkDecide_next (s : LkSys) (c : Nat) (v : List ZNode) : (lkDecide s c v).1.next = s.next := by
  unfold lkDecide
  (repeat' split) <;> rfl

theorem lockCall_next (s : LkSys) (c : Nat) (again : Bool) (a : ZAns) (p : LkAt) :
    s.next ≤ (s.lockCall c again a p).1.next := by
  cases p with
  | make old =>
    cases a with
    | ok i l =>
      have : (s.lockCall c again (.ok i l) (.make old)).1 = if (s.objs c).alive then
        (((lkDraw s c).exec (.create c ((s.objs c).pre.getD s.pres.length) i)).upd c (fun o =>
          { o with id := some ⟨s.next + i, (s.objs c).pre.getD s.pres.length⟩, seen := s.views.length }))
        else s := by
        show (if (s.objs c).alive then _ else _ : LkSys × LkNext).1 = _
        split <;> rfl
      rw [this]
      split
      · have := exec_next (lkDraw s c) (.create c ((s.objs c).pre.getD s.pres.length) i)
        rw [lkDraw_next] at this; exact this
      · exact Nat.le_refl _
    | lost b =>
      have := lose_next (lkDraw s c) b (.create c ((s.objs c).pre.getD s.pres.length) 0)
      rw [lkDraw_next] at this; exact this
    | fail => exact Nat.le_refl _
  | giveUp =>
    have h := unlockCall_next s c a
    simp only [LkSys.lockCall]
    cases e : s.unlockCall c a with
    | mk t b => rw [e] at h; cases b <;> exact h
  | list2 r old =>
    cases a with
    | ok i l =>
      simp only [LkSys.lockCall]
      split
      · exact Nat.le_of_eq (lkDecide_next (s.upd c fun o => { o with seen := i }) c (if l = [] then old else l)).symm
      · exact Nat.le_refl _
    | lost b => simp only [LkSys.lockCall]; split <;> exact Nat.le_refl _
    | fail => exact Nat.le_refl _
  | parent r => cases a <;> simp only [LkSys.lockCall] <;> (repeat' split) <;> exact Nat.le_refl _
  | mkParent r => cases a <;> simp only [LkSys.lockCall] <;> (repeat' split) <;> exact Nat.le_refl _
  | list1 r => cases a <;> simp only [LkSys.lockCall] <;> (repeat' split) <;> exact Nat.le_refl _
  | watch q r => cases a <;> simp only [LkSys.lockCall] <;> (repeat' split) <;> exact Nat.le_refl _
  | own => exact Nat.le_refl _
  | lose => exact Nat.le_refl _

theorem lkStep_next (s : LkSys) (ev : LkEv) : s.next ≤ (lkStep s ev).next := by
  cases ev with
  | user c a =>
    simp only [lkStep, LkSys.userStep]
    cases hu : (s.objs c).user with
    | locking p =>
      have h := lockCall_next s c false a p
      simp only
      cases e : s.lockCall c false a p with
      | mk t nx => rw [e] at h; cases nx with
        | go q => exact h
        | ret b => cases b <;> exact h
    | checking p =>
      have h := lockCall_next s c false a p
      simp only
      cases e : s.lockCall c false a p with
      | mk t nx => rw [e] at h; cases nx <;> exact h
    | unlocking =>
      have h := unlockCall_next s c a
      simp only
      cases e : s.unlockCall c a with
      | mk t b => rw [e] at h; cases b <;> exact h
    | out => exact Nat.le_refl _
    | locked => exact Nat.le_refl _
    | waiting => exact Nat.le_refl _
    | inside => exact Nat.le_refl _
    | failed => exact Nat.le_refl _
  | zk c a =>
    simp only [lkStep, LkSys.zkStep]
    cases hz : (s.objs c).zk with
    | none => exact Nat.le_refl _
    | some p =>
      have h := lockCall_next s c true a p
      simp only
      cases e : s.lockCall c true a p with
      | mk t nx => rw [e] at h; cases nx <;> exact h
  | land i =>
    simp only [lkStep]
    split
    · exact exec_next { s with flying := s.flying.eraseIdx i } _
    · exact Nat.le_refl _
  | expire c => exact push_next s _ _ (Nat.le_refl _)
  | lock c told => simp only [lkStep]; (repeat' split) <;> exact Nat.le_refl _
  | await c told => simp only [lkStep]; (repeat' split) <;> exact Nat.le_refl _
  | timeout c => simp only [lkStep]; (repeat' split) <;> exact Nat.le_refl _
  | wake c => simp only [lkStep]; (repeat' split) <;> exact Nat.le_refl _
  | unlock c told => simp only [lkStep]; (repeat' split) <;> exact Nat.le_refl _
  | fire c => simp only [lkStep]; (repeat' split) <;> exact Nat.le_refl _

theorem lkRun_next (s : LkSys) (evs : List LkEv) : s.next ≤ (lkRun s evs).next := by
  induction evs generalizing s with
  | nil => exact Nat.le_refl _
  | cons e l ih => exact Nat.le_trans (lkStep_next s e) (ih _)

/-- The object of an event. -/
def LkEv.obj : LkEv → Nat
  | .lock c _ => c
  | .await c _ => c
  | .timeout c => c
  | .wake c => c
  | .unlock c _ => c
  | .fire c => c
  | .user c _ => c
  | .zk c _ => c
  | .land _ => 0
  | .expire c => c

theorem lkUpd_other (s : LkSys) {c d : Nat} (h : d ≠ c) (f : LkObj → LkObj) : (s.upd c f).objs d = s.objs d := by
  simp [LkSys.upd, h]

/-- The phases of other objects do not change. -/
theorem lkStep_other (s : LkSys) (ev : LkEv) (d : Nat) (h : d ≠ ev.obj) :
    ((lkStep s ev).objs d).zk = (s.objs d).zk ∧ ((lkStep s ev).objs d).user = (s.objs d).user := by
  cases ev with
  | user c a =>
    simp only [LkEv.obj] at h
    simp only [lkStep, LkSys.userStep]
    cases hu : (s.objs c).user with
    | locking p =>
      have k := lockCall_keeps s c false a p d
      simp only
      cases e : s.lockCall c false a p with
      | mk t nx =>
        rw [e] at k
        cases nx with
        | go q => simp only [LkSys.setUser, lkUpd_other _ h]; exact ⟨k.1, k.2.1⟩
        | ret b => cases b <;> simp only [LkSys.setUser, lkUpd_other _ h] <;> exact ⟨k.1, k.2.1⟩
    | checking p =>
      have k := lockCall_keeps s c false a p d
      simp only
      cases e : s.lockCall c false a p with
      | mk t nx => rw [e] at k; cases nx <;> simp only [LkSys.setUser, lkUpd_other _ h] <;> exact ⟨k.1, k.2.1⟩
    | unlocking =>
      have k := unlockCall_zk s c a d
      simp only
      cases e : s.unlockCall c a with
      | mk t b =>
        rw [e] at k
        cases b with
        | true => simp only [LkSys.setUser, lkUpd_other _ h]; exact ⟨k.1, k.2.1⟩
        | false => exact ⟨k.1, k.2.1⟩
    | out => exact ⟨rfl, rfl⟩
    | locked => exact ⟨rfl, rfl⟩
    | waiting => exact ⟨rfl, rfl⟩
    | inside => exact ⟨rfl, rfl⟩
    | failed => exact ⟨rfl, rfl⟩
  | zk c a =>
    simp only [LkEv.obj] at h
    simp only [lkStep, LkSys.zkStep]
    cases hz : (s.objs c).zk with
    | none => exact ⟨rfl, rfl⟩
    | some p =>
      have k := lockCall_keeps s c true a p d
      simp only
      cases e : s.lockCall c true a p with
      | mk t nx => rw [e] at k; cases nx <;> simp only [LkSys.setZk, lkUpd_other _ h] <;> exact ⟨k.1, k.2.1⟩
  | land i =>
    simp only [lkStep]
    split
    · rw [exec_objs]; exact ⟨rfl, rfl⟩
    · exact ⟨rfl, rfl⟩
  | expire c =>
    simp only [LkEv.obj] at h
    simp only [lkStep, lkUpd_other _ h]; exact ⟨rfl, rfl⟩
  | lock c told =>
    simp only [LkEv.obj] at h
    simp only [lkStep]; (repeat' split) <;> simp only [LkSys.setUser, lkUpd_other _ h, and_self]
  | await c told =>
    simp only [LkEv.obj] at h
    simp only [lkStep]; (repeat' split) <;> simp only [LkSys.setUser, lkUpd_other _ h, and_self]
  | timeout c =>
    simp only [LkEv.obj] at h
    simp only [lkStep]; (repeat' split) <;> simp only [LkSys.setUser, lkUpd_other _ h, and_self]
  | wake c =>
    simp only [LkEv.obj] at h
    simp only [lkStep]; (repeat' split) <;> simp only [LkSys.setUser, lkUpd_other _ h, and_self]
  | unlock c told =>
    simp only [LkEv.obj] at h
    simp only [lkStep]; (repeat' split) <;> simp only [LkSys.setUser, lkUpd_other _ h, and_self]
  | fire c =>
    simp only [LkEv.obj] at h
    simp only [lkStep]; (repeat' split) <;> simp only [LkSys.setZk, lkUpd_other _ h, and_self]

theorem lkStep_apart {s : LkSys} (ap : ∀ c, s.apart c) (ev : LkEv) (h : (lkStep s ev).apart ev.obj) :
    ∀ c, (lkStep s ev).apart c := by
  intro d
  by_cases e : d = ev.obj
  · rw [e]; exact h
  · have k := lkStep_other s ev d e
    unfold LkSys.apart
    rw [k.1, k.2]; exact ap d

/-- The two threads of a lock object never work on it at the same time. -/
def Apart (s : LkSys) : List LkEv → Prop
  | [] => True
  | e :: l => (lkStep s e).apart e.obj ∧ Apart (lkStep s e) l

instance (s : LkSys) (c : Nat) : Decidable (s.apart c) := by
  unfold LkSys.apart; split <;> infer_instance

instance decApart (s : LkSys) : (evs : List LkEv) → Decidable (Apart s evs)
  | [] => .isTrue trivial
  | e :: l => by
    have := decApart (lkStep s e) l
    unfold Apart; infer_instance

theorem lkInv_run (s : LkSys) (evs : List LkEv) (I : LkInv s) (mx : s.mutex) (ap : ∀ c, s.apart c)
    (apart : Apart s evs) (small : (lkRun s evs).next ≤ 2 ^ 31) :
    LkInv (lkRun s evs) ∧ (lkRun s evs).mutex ∧ ∀ c, (lkRun s evs).apart c := by
  induction evs generalizing s with
  | nil => exact ⟨I, mx, ap⟩
  | cons e l ih =>
    have h0 : s.next ≤ 2 ^ 31 := Nat.le_trans (lkRun_next s (e :: l)) small
    have a1 := lkStep_apart ap e apart.1
    exact ih (lkStep s e) (lkStep_ok I mx ap h0 e a1) (lkStep_mutex mx e) a1 apart.2 small

/-- All of this from the beginning. -/
theorem lkInv_start (d : Bool) (evs : List LkEv) (apart : Apart { dir := d } evs)
    (small : (lkRun { dir := d } evs).next ≤ 2 ^ 31) :
    LkInv (lkRun { dir := d } evs) ∧ (lkRun { dir := d } evs).mutex ∧ ∀ c, (lkRun { dir := d } evs).apart c :=
  lkInv_run { dir := d } evs (lkInv_init d) (fun _ h => by cases h) (fun _ => trivial) apart small

end Flare
