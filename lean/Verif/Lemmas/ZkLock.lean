import Verif.Model.ZkLock

/-! Lemmas about the shared lock. -/
namespace Flare

/-! ### Names -/

theorem digitsLt_digitsN (k a b : Nat) :
    digitsLt (digitsN k a) (digitsN k b) = decide (a % 10 ^ k < b % 10 ^ k) := by
  induction k with
  | zero => simp [digitsN, digitsLt, Nat.mod_one]
  | succ k ih =>
    have h : ∀ x : Nat, x % 10 ^ (k + 1) = x % 10 ^ k + 10 ^ k * (x / 10 ^ k % 10) :=
      fun x => Nat.mod_pow_succ
    have la : a % 10 ^ k < 10 ^ k := Nat.mod_lt _ (Nat.pow_pos (by decide))
    have lb : b % 10 ^ k < 10 ^ k := Nat.mod_lt _ (Nat.pow_pos (by decide))
    rw [h a, h b]
    simp only [digitsN, digitsLt, ih]
    obtain ⟨x, ex⟩ : ∃ x, x = a / 10 ^ k % 10 := ⟨_, rfl⟩
    obtain ⟨y, ey⟩ : ∃ y, y = b / 10 ^ k % 10 := ⟨_, rfl⟩
    rw [← ex, ← ey]
    generalize a % 10 ^ k = u at la ⊢
    generalize b % 10 ^ k = v at lb ⊢
    generalize 10 ^ k = p at la lb ⊢
    by_cases hxy : x < y
    · have : p * x + p ≤ p * y := by
        have : p * (x + 1) ≤ p * y := Nat.mul_le_mul_left _ hxy
        rwa [Nat.mul_add, Nat.mul_one] at this
      rw [if_pos hxy]
      symm; exact decide_eq_true (by omega)
    · rw [if_neg hxy]
      by_cases hyx : y < x
      · have : p * y + p ≤ p * x := by
          have : p * (y + 1) ≤ p * x := Nat.mul_le_mul_left _ hyx
          rwa [Nat.mul_add, Nat.mul_one] at this
        rw [if_pos hyx]
        symm; exact decide_eq_false (by omega)
      · have e : x = y := by omega
        subst e
        rw [if_neg hyx]
        simp only [Nat.add_lt_add_iff_right]

theorem zkSuffix_small {n : Nat} (h : n < 2 ^ 31) : zkSuffix n = digitsN 10 n := by
  have e : zkSeq n = (n : Nat) := by
    unfold zkSeq
    have : n % 2 ^ 32 = n := Nat.mod_eq_of_lt (Nat.lt_trans h (by decide))
    rw [this, if_pos h]
  unfold zkSuffix
  rw [e, if_pos (Int.natCast_nonneg n)]
  rfl

theorem before_small {a b : ZNode} (ha : a.num < 2 ^ 31) (hb : b.num < 2 ^ 31) :
    a.before b = decide (a.num < b.num) := by
  unfold ZNode.before
  rw [zkSuffix_small ha, zkSuffix_small hb, digitsLt_digitsN]
  have h : (2 : Nat) ^ 31 < 10 ^ 10 := by decide
  rw [Nat.mod_eq_of_lt (Nat.lt_trans ha h), Nat.mod_eq_of_lt (Nat.lt_trans hb h)]

theorem zkFront_mem {l : List ZNode} {a : ZNode} (h : zkFront l = some a) : a ∈ l := by
  induction l generalizing a with
  | nil => simp [zkFront] at h
  | cons b l ih =>
    simp only [zkFront] at h
    cases e : zkFront l with
    | none => rw [e] at h; simp only [Option.some.injEq] at h; exact List.mem_cons.2 (.inl h.symm)
    | some c =>
      rw [e] at h
      simp only at h
      split at h
      · simp only [Option.some.injEq] at h; exact List.mem_cons.2 (.inr (ih (h ▸ e)))
      · simp only [Option.some.injEq] at h; exact List.mem_cons.2 (.inl h.symm)

theorem zkFloor_none {me : ZNode} {l : List ZNode} (h : zkFloor me l = none) :
    ∀ a ∈ l, a.before me = false := by
  induction l with
  | nil => intro a ha; cases ha
  | cons b l ih =>
    intro a ha
    simp only [zkFloor] at h
    by_cases hb : b.before me = true
    · rw [if_pos hb] at h
      cases e : zkFloor me l with
      | none => rw [e] at h; cases h
      | some c => rw [e] at h; simp only at h; split at h <;> cases h
    · rw [if_neg hb] at h
      rcases List.mem_cons.1 ha with rfl | ha
      · exact Bool.eq_false_iff.2 hb
      · exact ih h a ha

theorem zkFloor_none_of {me : ZNode} {l : List ZNode} (h : ∀ a ∈ l, a.before me = false) :
    zkFloor me l = none := by
  induction l with
  | nil => rfl
  | cons b l ih =>
    have hb := h b (List.mem_cons.2 (.inl rfl))
    simp only [zkFloor, hb, Bool.false_eq_true, if_false]
    exact ih fun a ha => h a (List.mem_cons.2 (.inr ha))

theorem zkFloor_some {me p : ZNode} {l : List ZNode} (h : zkFloor me l = some p) :
    p ∈ l ∧ p.before me = true := by
  induction l generalizing p with
  | nil => simp [zkFloor] at h
  | cons b l ih =>
    simp only [zkFloor] at h
    by_cases hb : b.before me = true
    · rw [if_pos hb] at h
      cases e : zkFloor me l with
      | none => rw [e] at h; cases h; exact ⟨List.mem_cons.2 (.inl rfl), hb⟩
      | some c =>
        rw [e] at h; simp only at h
        split at h
        · cases h; exact ⟨List.mem_cons.2 (.inr (ih e).1), (ih e).2⟩
        · cases h; exact ⟨List.mem_cons.2 (.inl rfl), hb⟩
    · rw [if_neg hb] at h
      exact ⟨List.mem_cons.2 (.inr (ih h).1), (ih h).2⟩

/-- The node before a given one is the last of those with smaller numbers, all numbers being small. -/
theorem zkFloor_last {me p : ZNode} {l : List ZNode} (low : ∀ a ∈ l, a.num < 2 ^ 31) (hme : me.num < 2 ^ 31)
    (h : zkFloor me l = some p) : ∀ q ∈ l, q.num < me.num → q.num ≤ p.num := by
  induction l generalizing p with
  | nil => intro q hq; cases hq
  | cons b l ih =>
    have low' : ∀ a ∈ l, a.num < 2 ^ 31 := fun a ha => low a (List.mem_cons.2 (.inr ha))
    have lb := low b (List.mem_cons.2 (.inl rfl))
    intro q hq hqm
    simp only [zkFloor, before_small lb hme, decide_eq_true_eq] at h
    by_cases hb : b.num < me.num
    · rw [if_pos hb] at h
      cases e : zkFloor me l with
      | none =>
        rw [e] at h; cases h
        rcases List.mem_cons.1 hq with rfl | hq
        · exact Nat.le_refl _
        · have := zkFloor_none e q hq
          rw [before_small (low' q hq) hme, decide_eq_false_iff_not] at this
          exact absurd hqm this
      | some c =>
        have hc := low' c (zkFloor_some e).1
        rw [e] at h
        simp only [before_small lb hc, decide_eq_true_eq] at h
        have hl := ih low' e
        split at h
        · cases h
          rcases List.mem_cons.1 hq with rfl | hq
          · omega
          · exact hl q hq hqm
        · cases h
          rcases List.mem_cons.1 hq with rfl | hq
          · exact Nat.le_refl _
          · have := hl q hq hqm
            omega
    · rw [if_neg hb] at h
      rcases List.mem_cons.1 hq with rfl | hq
      · exact absurd hqm hb
      · exact ih low' h q hq hqm

/-- The front of a list in which one node has the smallest number, all numbers being small. -/
theorem zkFront_least {l : List ZNode} {me : ZNode} (hm : me ∈ l)
    (small : ∀ a ∈ l, a.num < 2 ^ 31) (least : ∀ a ∈ l, a ≠ me → me.num < a.num) :
    zkFront l = some me := by
  induction l with
  | nil => cases hm
  | cons b l ih =>
    have sb := small b (List.mem_cons.2 (.inl rfl))
    have sl : ∀ a ∈ l, a.num < 2 ^ 31 := fun a ha => small a (List.mem_cons.2 (.inr ha))
    have ll : ∀ a ∈ l, a ≠ me → me.num < a.num := fun a ha => least a (List.mem_cons.2 (.inr ha))
    by_cases hml : me ∈ l
    · have e := ih hml sl ll
      simp only [zkFront, e]
      by_cases hb : b = me
      · subst hb
        rw [before_small sb sb]; simp
      · have := least b (List.mem_cons.2 (.inl rfl)) hb
        rw [before_small (sl me hml) sb, decide_eq_true this]; rfl
    · have hb : b = me := by
        rcases List.mem_cons.1 hm with h | h
        · exact h.symm
        · exact absurd h hml
      subst hb
      simp only [zkFront]
      cases e : zkFront l with
      | none => rfl
      | some c =>
        have hc := zkFront_mem e
        have : c ≠ b := fun h => hml (h ▸ hc)
        have lt := ll c hc this
        simp only
        rw [before_small (sl c hc) sb, if_neg]
        simp only [decide_eq_true_eq]; omega

/-! ### Steps -/
section
variable {V O : Type}

theorem setClient_same (s : ZkSys V O) (c : Nat) (x : ZClient V) : (s.setClient c x).clients c = x := by
  simp [ZkSys.setClient]

theorem setClient_other (s : ZkSys V O) {c d : Nat} (x : ZClient V) (h : d ≠ c) :
    (s.setClient c x).clients d = s.clients d := by
  simp [ZkSys.setClient, h]

theorem change_now (s : ZkSys V O) (l : List ZNode) : (s.change l).now = l := by
  simp [ZkSys.change, ZkSys.now]

theorem mem_zkDrop {c : Nat} {l : List ZNode} {n : ZNode} : n ∈ zkDrop c l ↔ n ∈ l ∧ n.who ≠ c := by
  simp [zkDrop]

theorem zkRun_append (app : O → V → V) (s : ZkSys V O) (l m : List (ZkEv O)) :
    zkRun app s (l ++ m) = zkRun app (zkRun app s l) m := by
  simp [zkRun, List.foldl_append]

theorem zkRun_snoc (app : O → V → V) (s : ZkSys V O) (l : List (ZkEv O)) (e : ZkEv O) :
    zkRun app s (l ++ [e]) = zkStep app (zkRun app s l) e := by
  simp [zkRun, List.foldl_append]

/-- The number of the node a client waits or works with. -/
def ZPhase.num? : ZPhase V → Option Nat
  | .out => none
  | .waiting n _ => some n
  | .holding n _ => some n

theorem next_le_step (app : O → V → V) (s : ZkSys V O) (e : ZkEv O) : s.next ≤ (zkStep app s e).next := by
  cases e with
  | create c skip =>
    simp only [zkStep]; split
    · simp [ZkSys.setClient, ZkSys.change]; omega
    · exact Nat.le_refl _
  | check c i j =>
    simp only [zkStep]; split
    · split
      · split
        · exact Nat.le_refl _
        · exact Nat.le_refl _
      · exact Nat.le_refl _
    · exact Nat.le_refl _
  | load c => simp only [zkStep]; split <;> exact Nat.le_refl _
  | store c o => simp only [zkStep]; split <;> exact Nat.le_refl _
  | storeLost c o => simp only [zkStep]; split <;> exact Nat.le_refl _
  | land i => simp only [zkStep]; split <;> exact Nat.le_refl _
  | release c => simp only [zkStep]; split <;> exact Nat.le_refl _
  | expire c => exact Nat.le_refl _

/-- What holds of the lock while no holder's session expires and the numbers stay small. -/
structure ZkInv (s : ZkSys V O) : Prop where
  nonempty : s.views ≠ []
  /-- Every node was made with a number below the next. -/
  low : ∀ l ∈ s.views, ∀ n ∈ l, n.num < s.next
  /-- The nodes now are those of the clients. -/
  node : ∀ n ∈ s.now, (s.clients n.who).phase.num? = some n.num ∧ (s.clients n.who).alive = true
  own : ∀ c n, (s.clients c).phase.num? = some n → (s.clients c).alive = true → ⟨n, c⟩ ∈ s.now
  /-- Numbers are not used twice. -/
  uniq : ∀ a ∈ s.now, ∀ b ∈ s.now, a.num = b.num → a = b
  /-- A node that is still there and older than one's own is in every state one can see. -/
  seen : ∀ c n, (s.clients c).phase.num? = some n → ∀ m ∈ s.now, m.num < n →
    ∀ i, (s.clients c).since ≤ i → ∀ l, s.views[i]? = some l → m ∈ l
  since : ∀ c n, (s.clients c).phase.num? = some n →
    n < s.next ∧ (s.clients c).since < s.views.length
  hold : ∀ c n m, (s.clients c).phase = .holding n m →
    (s.clients c).alive = true ∧ ∀ a ∈ s.now, n ≤ a.num

/-- Changing nothing but what a client has loaded, or the data. -/
theorem ZkInv.congr {s t : ZkSys V O} (I : ZkInv s) (hv : t.views = s.views) (hn : t.next = s.next)
    (hc : ∀ c, (t.clients c).alive = (s.clients c).alive ∧ (t.clients c).since = (s.clients c).since ∧
      (t.clients c).phase.num? = (s.clients c).phase.num? ∧
      (∀ n m, (t.clients c).phase = .holding n m → ∃ m', (s.clients c).phase = .holding n m')) :
    ZkInv t := by
  have hnow : t.now = s.now := by simp only [ZkSys.now, hv]
  refine ⟨hv ▸ I.nonempty, ?_, ?_, ?_, ?_, ?_, ?_, ?_⟩
  · rw [hv, hn]; exact I.low
  · intro n h; rw [(hc n.who).2.2.1, (hc n.who).1]; exact I.node n (hnow ▸ h)
  · intro c n h h'
    rw [hnow]; rw [(hc c).2.2.1] at h; rw [(hc c).1] at h'; exact I.own c n h h'
  · rw [hnow]; exact I.uniq
  · intro c n h m hm hlt i hi l hl
    rw [(hc c).2.2.1] at h; rw [hnow] at hm; rw [(hc c).2.1] at hi; rw [hv] at hl
    exact I.seen c n h m hm hlt i hi l hl
  · intro c n h; rw [(hc c).2.2.1] at h; rw [hn, hv, (hc c).2.1]; exact I.since c n h
  · intro c n m h
    obtain ⟨m', h'⟩ := (hc c).2.2.2 n m h
    rw [(hc c).1, hnow]; exact I.hold c n m' h'

theorem views_snoc_getElem? {s : ZkSys V O} {l l' : List ZNode} {i : Nat}
    (h : (s.views ++ [l])[i]? = some l') : s.views[i]? = some l' ∨ l' = l := by
  by_cases hi : i < s.views.length
  · rw [List.getElem?_append_left hi] at h; exact .inl h
  · rw [List.getElem?_append_right (by omega)] at h
    cases e : i - s.views.length with
    | zero => rw [e] at h; simp at h; exact .inr h.symm
    | succ k => rw [e] at h; simp at h

theorem now_mem_views {s : ZkSys V O} (h : s.views ≠ []) : s.now ∈ s.views := by
  unfold ZkSys.now
  rw [List.getLast?_eq_some_getLast h]
  exact List.getLast_mem h

/-- Removing the node of a client. -/
theorem ZkInv.drop {s : ZkSys V O} (I : ZkInv s) (c : Nat) (x : ZClient V)
    (hx : (x.phase = .out) ∨ (x.phase = (s.clients c).phase ∧ x.alive = false ∧
      x.since = (s.clients c).since ∧ ¬ s.holds c)) :
    ZkInv ((s.change (zkDrop c s.now)).setClient c x) := by
  have hnow : ((s.change (zkDrop c s.now)).setClient c x).now = zkDrop c s.now := by
    show (s.change (zkDrop c s.now)).now = _
    exact change_now _ _
  have hviews : ((s.change (zkDrop c s.now)).setClient c x).views = s.views ++ [zkDrop c s.now] := rfl
  have hnext : ((s.change (zkDrop c s.now)).setClient c x).next = s.next := rfl
  have hother : ∀ d, d ≠ c → ((s.change (zkDrop c s.now)).setClient c x).clients d = s.clients d :=
    fun d h => setClient_other _ _ h
  have hsame : ((s.change (zkDrop c s.now)).setClient c x).clients c = x := setClient_same _ _ _
  generalize (s.change (zkDrop c s.now)).setClient c x = t at hnow hviews hnext hother hsame ⊢
  have key : ∀ d n, (t.clients d).phase.num? = some n →
      (s.clients d).phase.num? = some n ∧ (t.clients d).since = (s.clients d).since := by
    intro d n h
    by_cases hd : d = c
    · subst hd
      rw [hsame] at h ⊢
      rcases hx with hx | ⟨hx, _, hs, _⟩
      · rw [hx] at h; cases h
      · exact ⟨hx ▸ h, hs⟩
    · rw [hother d hd] at h ⊢; exact ⟨h, rfl⟩
  refine ⟨by rw [hviews]; simp, ?_, ?_, ?_, ?_, ?_, ?_, ?_⟩
  · intro l hl n hn
    rw [hviews] at hl; rw [hnext]
    rcases List.mem_append.1 hl with hl | hl
    · exact I.low l hl n hn
    · rw [List.mem_singleton.1 hl] at hn
      exact I.low _ (now_mem_views I.nonempty) n (mem_zkDrop.1 hn).1
  · intro n hn
    rw [hnow] at hn
    obtain ⟨h1, h2⟩ := mem_zkDrop.1 hn
    rw [hother _ h2]; exact I.node n h1
  · intro d n h h'
    rw [hnow]
    by_cases hd : d = c
    · subst hd
      rw [hsame] at h h'
      rcases hx with hx | ⟨_, hx, _⟩
      · rw [hx] at h; cases h
      · rw [hx] at h'; cases h'
    · rw [hother d hd] at h h'
      exact mem_zkDrop.2 ⟨I.own d n h h', hd⟩
  · intro a ha b hb; rw [hnow] at ha hb
    exact I.uniq a (mem_zkDrop.1 ha).1 b (mem_zkDrop.1 hb).1
  · intro d n h m hm hlt i hi l hl
    obtain ⟨h1, h2⟩ := key d n h
    rw [hnow] at hm; rw [h2] at hi; rw [hviews] at hl
    rcases views_snoc_getElem? hl with hl | rfl
    · exact I.seen d n h1 m (mem_zkDrop.1 hm).1 hlt i hi l hl
    · exact hm
  · intro d n h
    have := I.since d n (key d n h).1
    rw [hnext, hviews, (key d n h).2, List.length_append]
    exact ⟨this.1, Nat.lt_of_lt_of_le this.2 (Nat.le_add_right _ _)⟩
  · intro d n m h
    by_cases hd : d = c
    · subst hd
      rw [hsame] at h
      rcases hx with hx | ⟨hx, _, _, hh⟩
      · rw [hx] at h; cases h
      · exact absurd ⟨n, m, hx ▸ h⟩ hh
    · rw [hother d hd] at h ⊢
      refine ⟨(I.hold d n m h).1, ?_⟩
      intro a ha; rw [hnow] at ha; exact (I.hold d n m h).2 a (mem_zkDrop.1 ha).1

theorem ZkInv.create {s : ZkSys V O} (I : ZkInv s) (app : O → V → V) (c skip : Nat) :
    ZkInv (zkStep app s (.create c skip)) := by
  simp only [zkStep]
  split
  case h_2 => exact I
  case h_1 hp ha =>
  have hp' : ∀ n, (s.clients c).phase.num? ≠ some n := by rw [hp]; intro n h; cases h
  obtain ⟨N, eN⟩ : ∃ N, N = s.next + skip := ⟨_, rfl⟩
  rw [← eN]
  obtain ⟨x, ex⟩ : ∃ x : ZClient V, x = ⟨.waiting N none, true, s.views.length⟩ := ⟨_, rfl⟩
  rw [← ex]
  have hnow : ((ZkSys.change { s with next := N + 1 } (s.now ++ [⟨N, c⟩])).setClient c x).now =
      s.now ++ [⟨N, c⟩] := change_now _ _
  have hviews : ((ZkSys.change { s with next := N + 1 } (s.now ++ [⟨N, c⟩])).setClient c x).views =
      s.views ++ [s.now ++ [⟨N, c⟩]] := rfl
  have hnext : ((ZkSys.change { s with next := N + 1 } (s.now ++ [⟨N, c⟩])).setClient c x).next = N + 1 :=
    rfl
  have hother : ∀ d, d ≠ c → ((ZkSys.change { s with next := N + 1 }
      (s.now ++ [⟨N, c⟩])).setClient c x).clients d = s.clients d := fun d h => setClient_other _ _ h
  have hsame : ((ZkSys.change { s with next := N + 1 } (s.now ++ [⟨N, c⟩])).setClient c x).clients c = x :=
    setClient_same _ _ _
  generalize (ZkSys.change { s with next := N + 1 } (s.now ++ [⟨N, c⟩])).setClient c x = t
    at hnow hviews hnext hother hsame ⊢
  have low : ∀ n ∈ s.now, n.num < s.next := fun n h => I.low _ (now_mem_views I.nonempty) n h
  have hmem : ∀ m, m ∈ t.now ↔ m ∈ s.now ∨ m = ⟨N, c⟩ := by
    intro m; rw [hnow]; simp
  have hxn : x.phase.num? = some N := by rw [ex]; rfl
  have hnc : ∀ m ∈ s.now, m.who ≠ c := fun m hm h => hp' m.num (h ▸ (I.node m hm).1)
  refine ⟨by rw [hviews]; simp, ?_, ?_, ?_, ?_, ?_, ?_, ?_⟩
  · intro l hl n hn
    rw [hnext]; rw [hviews] at hl
    rcases List.mem_append.1 hl with hl | hl
    · have := I.low l hl n hn; omega
    · rw [List.mem_singleton.1 hl] at hn
      rcases List.mem_append.1 hn with hn | hn
      · have := low n hn; omega
      · rw [List.mem_singleton.1 hn]; exact Nat.lt_succ_self N
  · intro n hn
    rcases (hmem n).1 hn with hn | rfl
    · rw [hother _ (hnc n hn)]; exact I.node n hn
    · show (t.clients c).phase.num? = some N ∧ (t.clients c).alive = true
      rw [hsame]; exact ⟨hxn, by rw [ex]⟩
  · intro d n h h'
    by_cases hd : d = c
    · subst hd
      rw [hsame, hxn] at h; cases h
      exact (hmem _).2 (.inr rfl)
    · rw [hother d hd] at h h'
      exact (hmem _).2 (.inl (I.own d n h h'))
  · intro a ha b hb e
    rcases (hmem a).1 ha with ha | rfl <;> rcases (hmem b).1 hb with hb | rfl
    · exact I.uniq a ha b hb e
    · have := low a ha; simp only at e; omega
    · have := low b hb; simp only at e; omega
    · rfl
  · intro d n h m hm hlt i hi l hl
    by_cases hd : d = c
    · subst hd
      rw [hsame] at h hi
      rw [hxn] at h; cases h
      have : x.since = s.views.length := by rw [ex]
      rw [this] at hi; rw [hviews] at hl
      rw [List.getElem?_append_right hi] at hl
      cases e : i - s.views.length with
      | zero => rw [e] at hl; simp at hl; rw [← hl, ← hnow]; exact hm
      | succ k => rw [e] at hl; simp at hl
    · rw [hother d hd] at h hi
      have hn := (I.since d n h).1
      rcases (hmem m).1 hm with hm | rfl
      · rw [hviews] at hl
        rcases views_snoc_getElem? hl with hl | rfl
        · exact I.seen d n h m hm hlt i hi l hl
        · exact List.mem_append.2 (.inl hm)
      · simp only at hlt; omega
  · intro d n h
    rw [hnext, hviews, List.length_append]
    by_cases hd : d = c
    · subst hd; rw [hsame] at h ⊢; rw [hxn] at h; cases h
      exact ⟨Nat.lt_succ_self N, by rw [ex]; exact Nat.lt_succ_self _⟩
    · rw [hother d hd] at h ⊢
      have := I.since d n h
      exact ⟨by omega, Nat.lt_of_lt_of_le this.2 (Nat.le_add_right _ _)⟩
  · intro d n m h
    by_cases hd : d = c
    · subst hd; rw [hsame, ex] at h; cases h
    · rw [hother d hd] at h ⊢
      refine ⟨(I.hold d n m h).1, ?_⟩
      intro a ha
      rcases (hmem a).1 ha with ha | rfl
      · exact (I.hold d n m h).2 a ha
      · have := (I.since d n (by rw [h]; rfl)).1
        show n ≤ N
        omega

theorem zkLook_num (me : ZNode) (a b : List ZNode) (w : Option ZNode) :
    (zkLook me a b w : ZPhase V).num? = some me.num := by
  unfold zkLook
  split
  · split <;> rfl
  · split <;> rfl

theorem zkLook_holding {me : ZNode} {a b : List ZNode} {w : Option ZNode} {n : Nat} {m : Option V}
    (h : (zkLook me a b w : ZPhase V) = .holding n m) :
    n = me.num ∧ zkFront a = some me ∧ ∀ x ∈ a, x.before me = false := by
  unfold zkLook at h
  split at h
  · rename_i hf
    split at h
    · rename_i he
      cases h; exact ⟨rfl, he, zkFloor_none hf⟩
    · cases h
  · split at h <;> cases h

theorem ZkInv.check {s : ZkSys V O} (I : ZkInv s) (app : O → V → V) (c i j : Nat)
    (small : s.next ≤ 2 ^ 31) : ZkInv (zkStep app s (.check c i j)) := by
  simp only [zkStep]
  split
  case h_2 => exact I
  case h_1 n w hp ha =>
  by_cases hij : (s.clients c).since ≤ i ∧ i ≤ j
  case neg => rw [if_neg hij]; exact I
  rw [if_pos hij]
  split
  case h_2 => exact I
  case h_1 seen later hs hl =>
  have hnum : (s.clients c).phase.num? = some n := by rw [hp]; rfl
  obtain ⟨x, ex⟩ : ∃ x : ZClient V, x = { s.clients c with phase := zkLook ⟨n, c⟩ seen later w } :=
    ⟨_, rfl⟩
  rw [← ex]
  have xs : x.since = (s.clients c).since := by rw [ex]
  have xa : x.alive = (s.clients c).alive := by rw [ex]
  have xn : x.phase.num? = some n := by rw [ex]; exact zkLook_num _ _ _ _
  have hnow : (s.setClient c x).now = s.now := rfl
  have hsame : (s.setClient c x).clients c = x := setClient_same _ _ _
  have hother : ∀ d, d ≠ c → (s.setClient c x).clients d = s.clients d := fun d h => setClient_other _ _ h
  have hv : (s.setClient c x).views = s.views := rfl
  have hnx : (s.setClient c x).next = s.next := rfl
  generalize s.setClient c x = t at hnow hsame hother hv hnx ⊢
  have key : ∀ d, (t.clients d).phase.num? = (s.clients d).phase.num? ∧
      (t.clients d).since = (s.clients d).since ∧ (t.clients d).alive = (s.clients d).alive := by
    intro d
    by_cases hd : d = c
    · subst hd; rw [hsame]; exact ⟨xn.trans hnum.symm, xs, xa⟩
    · rw [hother d hd]; exact ⟨rfl, rfl, rfl⟩
  refine ⟨hv ▸ I.nonempty, by rw [hv, hnx]; exact I.low, ?_, ?_, by rw [hnow]; exact I.uniq, ?_, ?_, ?_⟩
  · intro m hm; rw [(key _).1, (key _).2.2]; exact I.node m (hnow ▸ hm)
  · intro d k h h'; rw [hnow]; rw [(key d).1] at h; rw [(key d).2.2] at h'; exact I.own d k h h'
  · intro d k h m hm hlt e he l hl'
    rw [(key d).1] at h; rw [hnow] at hm; rw [(key d).2.1] at he; rw [hv] at hl'
    exact I.seen d k h m hm hlt e he l hl'
  · intro d k h; rw [(key d).1] at h; rw [hnx, hv, (key d).2.1]; exact I.since d k h
  · intro d k m h
    by_cases hd : d = c
    · subst hd
      rw [hsame] at h ⊢
      refine ⟨xa.trans ha, ?_⟩
      rw [ex] at h
      obtain ⟨e1, _, e3⟩ := zkLook_holding h
      intro a hain
      rw [hnow] at hain
      apply Classical.byContradiction
      intro hlt
      have hlt : a.num < n := by simp only at e1; omega
      have hmem := I.seen d n hnum a hain hlt i hij.1 seen hs
      have := e3 a hmem
      have l1 := I.low _ (now_mem_views I.nonempty) a hain
      have l2 := (I.since d n hnum).1
      rw [before_small (by omega) (by show n < _; omega), decide_eq_true hlt] at this
      cases this
    · rw [hother d hd] at h ⊢; rw [hnow]; exact I.hold d k m h

theorem ZkInv.step {s : ZkSys V O} (I : ZkInv s) (app : O → V → V) (e : ZkEv O)
    (small : (zkStep app s e).next ≤ 2 ^ 31) (he : ∀ c, e = .expire c → ¬ s.holds c) :
    ZkInv (zkStep app s e) := by
  cases e with
  | create c skip => exact I.create app c skip
  | check c i j => exact I.check app c i j (Nat.le_trans (next_le_step app s _) small)
  | load c =>
    simp only [zkStep]
    split
    · rename_i n m hp
      refine I.congr (by rfl) (by rfl) ?_
      intro d
      by_cases hd : d = c
      · subst hd; rw [setClient_same]
        refine ⟨rfl, rfl, by rw [hp]; rfl, ?_⟩
        intro k m' h; cases h; exact ⟨m, hp⟩
      · rw [setClient_other _ _ hd]; exact ⟨rfl, rfl, rfl, fun k m' h => ⟨m', h⟩⟩
    · exact I
  | store c o =>
    simp only [zkStep]
    split
    · rename_i n v hp
      refine I.congr (by rfl) (by rfl) ?_
      intro d
      by_cases hd : d = c
      · subst hd; rw [setClient_same]
        refine ⟨rfl, rfl, by rw [hp]; rfl, ?_⟩
        intro k m' h; cases h; exact ⟨_, hp⟩
      · rw [setClient_other _ _ hd]; exact ⟨rfl, rfl, rfl, fun k m' h => ⟨m', h⟩⟩
    · exact I
  | storeLost c o =>
    simp only [zkStep]
    split
    · rename_i n v hp
      refine I.congr (by rfl) (by rfl) ?_
      intro d
      by_cases hd : d = c
      · subst hd; rw [setClient_same]
        refine ⟨rfl, rfl, by rw [hp]; rfl, ?_⟩
        intro k m' h; cases h; exact ⟨_, hp⟩
      · rw [setClient_other _ _ hd]; exact ⟨rfl, rfl, rfl, fun k m' h => ⟨m', h⟩⟩
    · exact I
  | land i =>
    simp only [zkStep]
    split
    · exact I.congr (by rfl) (by rfl) fun d => ⟨rfl, rfl, rfl, fun k m' h => ⟨m', h⟩⟩
    · exact I
  | release c =>
    simp only [zkStep]
    split
    · exact I
    · exact I.drop c _ (.inl rfl)
  | expire c =>
    exact I.drop c _ (.inr ⟨rfl, rfl, rfl, he c rfl⟩)

/-- Nobody loses the session while holding the lock. -/
def HoldersLive (app : O → V → V) (s : ZkSys V O) (evs : List (ZkEv O)) : Prop :=
  ∀ pre c post, evs = pre ++ .expire c :: post → ¬ (zkRun app s pre).holds c

theorem HoldersLive.init {app : O → V → V} {s : ZkSys V O} {l : List (ZkEv O)} {e : ZkEv O}
    (h : HoldersLive app s (l ++ [e])) : HoldersLive app s l := by
  intro pre c post hl
  exact h pre c (post ++ [e]) (by rw [hl]; simp)

theorem zkInv_start (d : V) : ZkInv ({ data := d } : ZkSys V O) := by
  refine ⟨by simp, ?_, ?_, ?_, ?_, ?_, ?_, ?_⟩
  · intro l hl n hn; rw [List.mem_singleton.1 hl] at hn; cases hn
  · intro n hn; simp [ZkSys.now] at hn
  · intro c n h; cases h
  · intro a ha; simp [ZkSys.now] at ha
  · intro c n h; cases h
  · intro c n h; cases h
  · intro c n m h; cases h

theorem zkInv_run (app : O → V → V) (d : V) (evs : List (ZkEv O))
    (small : (zkRun app { data := d } evs).next ≤ 2 ^ 31) (live : HoldersLive app { data := d } evs) :
    ZkInv (zkRun app { data := d } evs) := by
  obtain ⟨r, er⟩ : ∃ r, r = evs.reverse := ⟨_, rfl⟩
  have ee : evs = r.reverse := by rw [er]; simp
  clear er
  induction r generalizing evs with
  | nil => subst ee; exact zkInv_start d
  | cons e r ih =>
    rw [List.reverse_cons] at ee
    subst ee
    rw [zkRun_snoc] at small ⊢
    have live' := live.init
    have I := ih r.reverse (Nat.le_trans (next_le_step app _ e) small) live' rfl
    exact I.step app e small fun c hc => live r.reverse c [] (by rw [hc])

/-! ### The data -/

/-- What the holder has loaded is what is stored, and that is what the operations made of the start. -/
structure ZkData (app : O → V → V) (d : V) (s : ZkSys V O) : Prop where
  flying : s.flying = []
  mine : ∀ c n v, (s.clients c).phase = .holding n (some v) → v = s.data
  data : s.data = s.acked.foldl (fun x o => app o x) d

theorem ZkInv.one {s : ZkSys V O} (I : ZkInv s) {c d n m : Nat} {x y : Option V}
    (hc : (s.clients c).phase = .holding n x) (hd : (s.clients d).phase = .holding m y) : c = d := by
  have h1 := I.own c n (by rw [hc]; rfl) (I.hold c n x hc).1
  have h2 := I.own d m (by rw [hd]; rfl) (I.hold d m y hd).1
  have l1 := (I.hold c n x hc).2 _ h2
  have l2 := (I.hold d m y hd).2 _ h1
  have := I.uniq _ h1 _ h2 (Nat.le_antisymm l1 l2)
  cases this; rfl

theorem ZkData.setClient {app : O → V → V} {d : V} {s t : ZkSys V O} (D : ZkData app d s) (c : Nat)
    (hf : t.flying = s.flying) (hd : t.data = s.data) (ha : t.acked = s.acked)
    (ho : ∀ e, e ≠ c → t.clients e = s.clients e)
    (hc : ∀ n v, (t.clients c).phase = .holding n (some v) → v = s.data) : ZkData app d t := by
  refine ⟨hf ▸ D.flying, ?_, by rw [hd, ha]; exact D.data⟩
  intro e n v h
  rw [hd]
  by_cases he : e = c
  · subst he; exact hc n v h
  · rw [ho e he] at h; exact D.mine e n v h

theorem ZkData.step {app : O → V → V} {d : V} {s : ZkSys V O} (I : ZkInv s) (D : ZkData app d s)
    (e : ZkEv O) (hl : ∀ c o, e ≠ .storeLost c o) : ZkData app d (zkStep app s e) := by
  cases e with
  | create c skip =>
    simp only [zkStep]
    split
    · refine D.setClient c rfl rfl rfl (fun e he => setClient_other _ _ he) ?_
      intro n v h; rw [setClient_same] at h; cases h
    · exact D
  | check c i j =>
    simp only [zkStep]
    split
    case h_2 => exact D
    case h_1 n w hp ha =>
    split
    case isFalse => exact D
    case isTrue =>
    split
    case h_2 => exact D
    case h_1 seen later _ _ =>
    refine D.setClient c rfl rfl rfl (fun e he => setClient_other _ _ he) ?_
    intro k v h
    rw [setClient_same] at h
    simp only [zkLook] at h
    split at h
    · split at h <;> cases h
    · split at h <;> cases h
  | load c =>
    simp only [zkStep]
    split
    · refine D.setClient c rfl rfl rfl (fun e he => setClient_other _ _ he) ?_
      intro n v h; rw [setClient_same] at h; cases h; rfl
    · exact D
  | store c o =>
    simp only [zkStep]
    split
    · rename_i n v hp
      have hv := D.mine c n v hp
      refine ⟨D.flying, ?_, ?_⟩
      · intro e k u h
        by_cases he : e = c
        · subst he; rw [setClient_same] at h; cases h
        · rw [setClient_other _ _ he] at h
          exact absurd (I.one h hp) he
      · show app o v = (s.acked ++ [o]).foldl (fun x o => app o x) d
        rw [List.foldl_append, ← D.data, hv]; rfl
    · exact D
  | storeLost c o => exact absurd rfl (hl c o)
  | land i =>
    simp only [zkStep, D.flying, List.getElem?_nil]
    exact D
  | release c =>
    simp only [zkStep]
    split
    · exact D
    · refine D.setClient c rfl rfl rfl (fun e he => setClient_other _ _ he) ?_
      intro n v h; rw [setClient_same] at h; cases h
  | expire c =>
    refine D.setClient c rfl rfl rfl (fun e he => setClient_other _ _ he) ?_
    intro n v h
    rw [zkStep, setClient_same] at h
    exact D.mine c n v h

theorem zkData_run (app : O → V → V) (d : V) (evs : List (ZkEv O))
    (small : (zkRun app { data := d } evs).next ≤ 2 ^ 31) (live : HoldersLive app { data := d } evs)
    (hl : ∀ c o, .storeLost c o ∉ evs) : ZkData app d (zkRun app { data := d } evs) := by
  obtain ⟨r, er⟩ : ∃ r, r = evs.reverse := ⟨_, rfl⟩
  have ee : evs = r.reverse := by rw [er]; simp
  clear er
  induction r generalizing evs with
  | nil =>
    subst ee
    exact ⟨rfl, fun c n v h => (nomatch h), rfl⟩
  | cons e r ih =>
    rw [List.reverse_cons] at ee
    subst ee
    rw [zkRun_snoc] at small ⊢
    have small' := Nat.le_trans (next_le_step app _ e) small
    have D := ih r.reverse small' live.init
      (fun c o h => hl c o (List.mem_append.2 (.inl h))) rfl
    exact D.step (zkInv_run app d _ small' live.init) e
      fun c o h => hl c o (List.mem_append.2 (.inr (List.mem_singleton.2 h.symm)))

/-! ### The order of the holders -/

/-- A node after a step was there before or has a new number. -/
theorem now_step (app : O → V → V) (s : ZkSys V O) (e : ZkEv O) :
    ∀ n ∈ (zkStep app s e).now, n ∈ s.now ∨ s.next ≤ n.num := by
  cases e with
  | create c skip =>
    simp only [zkStep]
    split
    · intro n hn
      rw [show ∀ (t : ZkSys V O) x, (t.setClient c x).now = t.now from fun _ _ => rfl, change_now] at hn
      rcases List.mem_append.1 hn with hn | hn
      · exact .inl hn
      · rw [List.mem_singleton.1 hn]; exact .inr (Nat.le_add_right _ _)
    · exact fun n hn => .inl hn
  | check c i j =>
    simp only [zkStep]
    split
    · split
      · split
        · exact fun n hn => .inl hn
        · exact fun n hn => .inl hn
      · exact fun n hn => .inl hn
    · exact fun n hn => .inl hn
  | load c => simp only [zkStep]; split <;> exact fun n hn => .inl hn
  | store c o => simp only [zkStep]; split <;> exact fun n hn => .inl hn
  | storeLost c o => simp only [zkStep]; split <;> exact fun n hn => .inl hn
  | land i => simp only [zkStep]; split <;> exact fun n hn => .inl hn
  | release c =>
    simp only [zkStep]
    split
    · exact fun n hn => .inl hn
    · intro n hn
      rw [show ∀ (t : ZkSys V O) x, (t.setClient c x).now = t.now from fun _ _ => rfl, change_now] at hn
      exact .inl (mem_zkDrop.1 hn).1
  | expire c =>
    intro n hn
    simp only [zkStep] at hn
    rw [show ∀ (t : ZkSys V O) x, (t.setClient c x).now = t.now from fun _ _ => rfl, change_now] at hn
    exact .inl (mem_zkDrop.1 hn).1

theorem now_run (app : O → V → V) (s : ZkSys V O) (evs : List (ZkEv O)) (k : Nat) (hk : k ≤ s.next)
    (h : ∀ n ∈ s.now, k ≤ n.num) : ∀ n ∈ (zkRun app s evs).now, k ≤ n.num := by
  induction evs generalizing s with
  | nil => exact h
  | cons e evs ih =>
    show ∀ n ∈ (zkRun app (zkStep app s e) evs).now, k ≤ n.num
    apply ih _ (Nat.le_trans hk (next_le_step app s e))
    intro n hn
    rcases now_step app s e n hn with hn | hn
    · exact h n hn
    · exact Nat.le_trans hk hn

theorem next_le_run (app : O → V → V) (s : ZkSys V O) (evs : List (ZkEv O)) :
    s.next ≤ (zkRun app s evs).next := by
  induction evs generalizing s with
  | nil => exact Nat.le_refl _
  | cons e evs ih => exact Nat.le_trans (next_le_step app s e) (ih _)

theorem HoldersLive.prefix {app : O → V → V} {s : ZkSys V O} {l m : List (ZkEv O)}
    (h : HoldersLive app s (l ++ m)) : HoldersLive app s l := by
  intro pre c post hl
  exact h pre c (post ++ m) (by rw [hl]; simp)

theorem holdersLive_of_no_expire {app : O → V → V} {s : ZkSys V O} {l : List (ZkEv O)}
    (h : ∀ c, .expire c ∉ l) : HoldersLive app s l := by
  intro pre c post hl
  exact absurd (hl ▸ List.mem_append.2 (.inr (List.mem_cons.2 (.inl rfl)))) (h c)

end
end Flare
