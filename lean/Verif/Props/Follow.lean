import Verif.Model.Follow

/-! C94: how an index server follows the shared node map, and how it stops doing so. -/
namespace Flare

/-! ### Every operation starts from the newest map -/

/-- What holds in every state: the session is not ahead of the store, and an operation that has flushed
sees the stored map. -/
structure FInv (s : Follow) : Prop where
  le : s.view ≤ s.now
  flushed : s.op = .flushed → s.view = s.now
  loaded : s.op = .loaded → s.view = s.now ∧ s.mem = s.now ∧ s.dirty = false

theorem FInv.step {s : Follow} (I : FInv s) (ev : FEv) : FInv (s.step ev) := by
  obtain ⟨le, fl, lo⟩ := I
  cases ev with
  | change =>
    simp only [Follow.step]
    split
    · exact ⟨le, fl, lo⟩
    · rename_i h
      refine ⟨Nat.le_succ_of_le le, ?_, ?_⟩ <;> intro ho <;> exact absurd (by rw [show s.op = _ from ho]; rfl) h
  | see =>
    simp only [Follow.step]
    split
    · rename_i h
      refine ⟨h.2, fun ho => ?_, fun ho => ?_⟩
      · have := fl ho; have := h.2; omega
      · have := (lo ho).1; have := h.2; omega
    · exact ⟨le, fl, lo⟩
  | tell ok =>
    simp only [Follow.step]
    split
    · rename_i h; exact ⟨le, fl, fun ho => absurd ho h.2.2⟩
    · exact ⟨le, fl, lo⟩
  | arm ok => simp only [Follow.step]; split <;> exact ⟨le, fl, lo⟩
  | begin =>
    simp only [Follow.step]
    split
    · exact ⟨le, fun h => by simp at h, fun h => by simp at h⟩
    · exact ⟨le, fl, lo⟩
  | flush ok =>
    simp only [Follow.step]
    split
    · split
      · exact ⟨le, fun h => by simp at h, fun h => by simp at h⟩
      · exact ⟨le, fun h => by simp [Follow.fail] at h, fun h => by simp [Follow.fail] at h⟩
    · exact ⟨le, fl, lo⟩
  | flushed ok =>
    simp only [Follow.step]
    split
    · split
      · exact ⟨Nat.le_refl _, fun _ => rfl, fun h => by simp at h⟩
      · exact ⟨le, fun h => by simp at h, fun h => by simp at h⟩
    · exact ⟨le, fl, lo⟩
  | load ok =>
    simp only [Follow.step]
    split
    · rename_i h
      split
      · exact ⟨le, fun h => by simp at h, fun _ => ⟨fl h, fl h, rfl⟩⟩
      · exact ⟨le, fun h => by simp [Follow.fail] at h, fun h => by simp [Follow.fail] at h⟩
    · exact ⟨le, fl, lo⟩
  | save ok =>
    simp only [Follow.step]
    split
    · split
      · exact ⟨Nat.le_refl _, fun h => by simp at h, fun h => by simp at h⟩
      · exact ⟨le, fun h => by simp [Follow.fail] at h, fun h => by simp [Follow.fail] at h⟩
    · exact ⟨le, fl, lo⟩
  | expire =>
    simp only [Follow.step]
    split
    · exact ⟨le, fun h => by simp at h, fun h => by simp at h⟩
    · exact ⟨le, fl, lo⟩

theorem FInv.run {s : Follow} (I : FInv s) (evs : List FEv) : FInv (s.run evs) := by
  induction evs generalizing s with
  | nil => exact I
  | cons e l ih => exact ih (I.step e)

/-- However far the session of a server is behind, however calls fail and whatever the other servers do:
an operation that comes to store its result has the newest map in memory, with nothing in it that is not
stored.  So nothing that another server stored is overwritten. -/
theorem C94_newest (n m : Nat) (h : m ≤ n) (evs : List FEv)
    (l : (Follow.run { now := n, view := m, mem := m } evs).op = .loaded) :
    (Follow.run { now := n, view := m, mem := m } evs).mem =
      (Follow.run { now := n, view := m, mem := m } evs).now ∧
    (Follow.run { now := n, view := m, mem := m } evs).dirty = false := by
  have I : FInv { now := n, view := m, mem := m } := ⟨h, fun h => by simp at h, fun h => by simp at h⟩
  exact ((I.run evs).loaded l).2

example : (Follow.run { now := 5, view := 1, mem := 1 } [.begin, .flush true, .flushed true, .load true]) =
    { now := 5, view := 5, mem := 5, op := .loaded, watch := .fired } := by decide

/-- Without the flush, the load would have shown the old map. -/
example : (Follow.run { now := 5, view := 1, mem := 1 } [.see, .tell true]).mem = 2 := by decide

/-! ### Following -/

/-- What may happen for the server to keep following: no call of the handler fails, no save fails, the
session does not expire, and no change gets to the server while its watch is not set. -/
def FEv.calm (s : Follow) : FEv → Prop
  | .tell ok | .arm ok | .save ok => ok = true
  | .see => s.watch ≠ .gap
  | .flushed ok => ok = true ∧ (s.watch = .gap → s.view = s.now)
  | .expire => False
  | _ => True

def FCalm : Follow → List FEv → Prop
  | _, [] => True
  | s, e :: l => e.calm s ∧ FCalm (s.step e) l

structure FGood (s : Follow) : Prop where
  inv : FInv s
  session : s.session = true
  whole : s.op ≠ .broken
  kept : s.watch ≠ .lost
  clean : s.dirty = false
  same : s.watch = .armed ∨ s.watch = .gap → s.mem = s.view

theorem FGood.step {s : Follow} (G : FGood s) (e : FEv) (c : e.calm s) : FGood (s.step e) := by
  obtain ⟨I, se, wh, ke, cl, sa⟩ := G
  have J := I.step e
  have fire : ∀ w : FWatch, w ≠ .lost → w.fire ≠ .lost := by intro w; cases w <;> simp [FWatch.fire]
  have fireA : ∀ w : FWatch, w ≠ .gap → w.fire = .armed ∨ w.fire = .gap → False := by
    intro w; cases w <;> simp [FWatch.fire]
  cases e with
  | change =>
    revert J; simp only [Follow.step]
    split <;> intro J
    · exact ⟨J, se, wh, ke, cl, sa⟩
    · exact ⟨J, se, wh, ke, cl, sa⟩
  | see =>
    revert J; simp only [Follow.step]
    split <;> intro J
    · exact ⟨J, se, wh, fire _ ke, cl, fun h => absurd h (fun h => fireA _ c h)⟩
    · exact ⟨J, se, wh, ke, cl, sa⟩
  | tell ok =>
    simp only [FEv.calm] at c; subst c
    revert J; simp only [Follow.step]
    split <;> intro J
    · exact ⟨J, se, wh, by simp, by simp, fun _ => by simp⟩
    · exact ⟨J, se, wh, ke, cl, sa⟩
  | arm ok =>
    simp only [FEv.calm] at c; subst c
    revert J; simp only [Follow.step]
    split <;> intro J
    · rename_i h; exact ⟨J, se, wh, by simp [se], cl, fun _ => sa (Or.inr h)⟩
    · exact ⟨J, se, wh, ke, cl, sa⟩
  | begin =>
    revert J; simp only [Follow.step]
    split <;> intro J
    · exact ⟨J, se, by simp, ke, cl, sa⟩
    · exact ⟨J, se, wh, ke, cl, sa⟩
  | flush ok =>
    revert J; simp only [Follow.step]
    split
    · split <;> intro J
      · exact ⟨J, se, by simp, ke, cl, sa⟩
      · exact ⟨J, se, by simp [Follow.fail], ke, cl, sa⟩
    · intro J; exact ⟨J, se, wh, ke, cl, sa⟩
  | flushed ok =>
    obtain ⟨c, cg⟩ := c; subst c
    revert J; simp only [Follow.step]
    split
    · split <;> intro J
      · refine ⟨J, se, by simp, ?_, cl, ?_⟩
        · simp only; split
          · exact fire _ ke
          · exact ke
        · simp only
          intro h
          split at h
          · rename_i hlt
            exact absurd h (fun h => fireA _ (fun g => by have := cg g; omega) h)
          · rw [sa h]; have := I.le; omega
      · rename_i h; exact absurd ⟨se, trivial⟩ h
    · intro J; exact ⟨J, se, wh, ke, cl, sa⟩
  | load ok =>
    revert J; simp only [Follow.step]
    split
    · split <;> intro J
      · exact ⟨J, se, by simp, ke, rfl, fun _ => rfl⟩
      · exact ⟨J, se, by simp [Follow.fail], ke, cl, sa⟩
    · intro J; exact ⟨J, se, wh, ke, cl, sa⟩
  | save ok =>
    simp only [FEv.calm] at c; subst c
    revert J; simp only [Follow.step]
    split
    · split <;> intro J
      · exact ⟨J, se, by simp, fire _ ke, cl, fun _ => rfl⟩
      · rename_i h; exact absurd ⟨se, trivial⟩ h
    · intro J; exact ⟨J, se, wh, ke, cl, sa⟩
  | expire => exact absurd c id

theorem FGood.run {s : Follow} (G : FGood s) (evs : List FEv) (c : FCalm s evs) : FGood (s.run evs) := by
  induction evs generalizing s with
  | nil => exact G
  | cons e l ih => exact ih (G.step e c.1) c.2

/-- The server hears of everything it has not seen: there is a way on, without help from other servers,
at the end of which it has the stored map. -/
theorem FGood.catch_up {s : Follow} (G : FGood s) (idle : s.op = .idle) :
    ∃ evs, (∀ e ∈ evs, e = .see ∨ e = .tell true ∨ e = .arm true) ∧ (s.run evs).mem = s.now ∧
      (s.run evs).watch = .armed ∧ (s.run evs).now = s.now := by
  -- first the handler finishes
  have base : ∀ s : Follow, FGood s → s.op = .idle → ∃ evs,
      (∀ e ∈ evs, e = .see ∨ e = .tell true ∨ e = .arm true) ∧ FGood (s.run evs) ∧
      (s.run evs).watch = .armed ∧ (s.run evs).now = s.now ∧ (s.run evs).view = s.view ∧
      (s.run evs).op = .idle := by
    intro s G idle
    cases hw : s.watch with
    | armed => exact ⟨[], by simp, G, hw, rfl, rfl, idle⟩
    | lost => exact absurd hw G.kept
    | gap =>
      refine ⟨[.arm true], by simp, G.step (.arm true) rfl, ?_, ?_, ?_, ?_⟩ <;>
        simp [Follow.run, Follow.step, hw, G.session, idle]
    | fired =>
      have G1 := G.step (.tell true) rfl
      refine ⟨[.tell true, .arm true], by simp, G1.step (.arm true) rfl, ?_, ?_, ?_, ?_⟩ <;>
        simp [Follow.run, Follow.step, hw, G.session, idle]
  obtain ⟨d, hd⟩ : ∃ d, d = s.now - s.view := ⟨_, rfl⟩
  induction d generalizing s with
  | zero =>
    obtain ⟨evs, h1, G', h2, h3, h4, -⟩ := base s G idle
    refine ⟨evs, h1, ?_, h2, h3⟩
    rw [G'.same (Or.inl h2), h4]
    have := G.inv.le; omega
  | succ d ih =>
    obtain ⟨evs, h1, G', h2, h3, h4, h5⟩ := base s G idle
    have lt : (s.run evs).view < (s.run evs).now := by rw [h3, h4]; omega
    have G2 := G'.step .see (by rw [FEv.calm, h2]; simp)
    have e2 : (s.run evs).step .see =
        { s.run evs with view := (s.run evs).view + 1, watch := (s.run evs).watch.fire } := by
      simp only [Follow.step]; rw [if_pos ⟨G'.session, lt⟩]
    obtain ⟨evs', k1, k2, k3, k4⟩ := ih G2 (by rw [e2]; exact h5) (by rw [e2]; simp only; omega)
    have ea : s.run (evs ++ .see :: evs') = Follow.run ((s.run evs).step .see) evs' := by
      simp [Follow.run, List.foldl_append]
    refine ⟨evs ++ .see :: evs', ?_, ?_, ?_, ?_⟩
    · intro e he
      rcases List.mem_append.1 he with he | he
      · exact h1 e he
      · rcases List.mem_cons.1 he with he | he
        · exact Or.inl he
        · exact k1 e he
    · rw [ea, k2, e2]; exact h3
    · rw [ea, k3]
    · rw [ea, k4, e2]; exact h3

/-- As long as nothing goes wrong, a server whose watch is set and whose session sees the stored map has
that map in memory; and one that is behind gets there by itself.  Partial: a failed call of the handler, a
change between its load and its `zoo_wexists`, a failed save and an expired session are left out; the
theorems below (and C69) say what they do. -/
theorem C94_follows_partial (n : Nat) (evs : List FEv)
    (c : FCalm { now := n, view := n, mem := n } evs) :
    let s := Follow.run { now := n, view := n, mem := n } evs
    (s.watch = .armed → s.view = s.now → s.mem = s.now ∧ s.dirty = false) ∧
    (s.op = .idle → ∃ l, (∀ e ∈ l, e = .see ∨ e = .tell true ∨ e = .arm true) ∧ (s.run l).mem = s.now) := by
  have G : FGood { now := n, view := n, mem := n } :=
    ⟨⟨Nat.le_refl _, fun h => by simp at h, fun h => by simp at h⟩, rfl, by simp, by simp, rfl, fun _ => rfl⟩
  have G' := G.run evs c
  refine ⟨fun h e => ⟨by rw [G'.same (Or.inl h), e], G'.clean⟩, fun idle => ?_⟩
  obtain ⟨l, h1, h2, -⟩ := G'.catch_up idle
  exact ⟨l, h1, h2⟩

/-- Three changes by others and one of its own. -/
example : FCalm { now := 7, view := 7, mem := 7 } [.change, .change, .see, .tell true, .arm true, .begin,
    .flush true, .flushed true, .load true, .save true, .change] ∧
    (Follow.run { now := 7, view := 7, mem := 7 } [.change, .change, .see, .tell true, .arm true, .begin,
      .flush true, .flushed true, .load true, .save true, .change]) =
    { now := 11, view := 10, mem := 10, watch := .fired, results := [true] } := by
  constructor
  · simp [FCalm, FEv.calm, Follow.step, FWatch.fire, FOp.holds]
  · decide

/-! ### What stops it -/

/-- Defect: a flush that fails is not noticed as such.  Its completion is given a null pointer, and that
is made into a string.  From then on nothing is said about this server. -/
theorem C94_failed_flush (s : Follow) (h : s.op = .flushing) (ok : Bool) (f : s.session = false ∨ ok = false)
    (evs : List FEv) : ((s.step (.flushed ok)).run evs).op = .broken := by
  have e : (s.step (.flushed ok)).op = .broken := by
    simp only [Follow.step, if_pos h]
    rw [if_neg (by rcases f with f | f <;> simp [f])]
  have stay : ∀ (t : Follow) (e : FEv), t.op = .broken → (t.step e).op = .broken := by
    intro t e ht
    cases e <;> simp only [Follow.step, ht] <;> (try split) <;> simp_all
  revert e
  generalize s.step (.flushed ok) = t
  induction evs generalizing t with
  | nil => exact id
  | cons x l ih => exact fun ht => ih _ (stay t x ht)

/-- It is enough that the connection breaks between the request and its answer. -/
theorem C94_failed_flush_happens :
    (Follow.run { now := 3, view := 3, mem := 3 } [.begin, .flush true, .flushed false]).op = .broken ∧
    (Follow.run { now := 3, view := 3, mem := 3 } [.begin, .flush true, .expire]).op = .broken := by decide

/-- Defect: a server whose session expires never gets another one, wherever an operation of its own is.
Whatever happens, the map in its memory stays what it is, it never stores one, and every operation fails (or
the process has ended), until it is started anew. -/
theorem C94_expired_for_good (s : Follow) (evs : List FEv) :
    ((s.step .expire).run evs).mem = s.mem ∧ ((s.step .expire).run evs).session = false ∧
    (s.op = .flushing → ((s.step .expire).run evs).op = .broken) ∧
    ∃ k, ((s.step .expire).run evs).results = s.results ++ List.replicate k false := by
  have key : ∀ (t : Follow) (e : FEv), t.session = false → t.op ≠ .flushing →
      (t.step e).mem = t.mem ∧ (t.step e).session = false ∧ (t.step e).op ≠ .flushing ∧
      (t.op = .broken → (t.step e).op = .broken) ∧
      ((t.step e).results = t.results ∨ (t.step e).results = t.results ++ [false]) := by
    intro t e hs ho
    cases e <;> simp only [Follow.step, hs, Follow.fail] <;> (try split) <;> (try split) <;> simp_all
  have main : ∀ (evs : List FEv) (t : Follow), t.session = false → t.op ≠ .flushing →
      (t.run evs).mem = t.mem ∧ (t.run evs).session = false ∧ (t.op = .broken → (t.run evs).op = .broken) ∧
      ∃ k, (t.run evs).results = t.results ++ List.replicate k false := by
    intro evs
    induction evs with
    | nil => intro t hs ho; exact ⟨rfl, hs, id, 0, by simp [Follow.run]⟩
    | cons e l ih =>
      intro t hs ho
      obtain ⟨a, b, c, f, d⟩ := key t e hs ho
      obtain ⟨a', b', f', k, d'⟩ := ih _ b c
      refine ⟨a'.trans a, b', fun h => f' (f h), ?_⟩
      rcases d with d | d
      · exact ⟨k, by rw [← d]; exact d'⟩
      · refine ⟨k + 1, ?_⟩
        have : t.run (e :: l) = (t.step e).run l := rfl
        rw [this, d', d, List.append_assoc, List.replicate_succ]; rfl
  have hx : (s.step .expire).session = false ∧ (s.step .expire).op ≠ .flushing ∧
      (s.op = .flushing → (s.step .expire).op = .broken) := by
    simp only [Follow.step]
    refine ⟨trivial, ?_, fun h => by rw [if_pos h]⟩
    split
    · simp
    · assumption
  obtain ⟨h1, h2, h3, h4⟩ := main evs (s.step .expire) hx.1 hx.2.1
  exact ⟨h1, h2, fun h => h3 (hx.2.2 h), h4⟩

/-- The session expires when the operation is about to load, and when it is about to store: it fails. -/
example : Follow.run { now := 3, view := 3, mem := 3 } [.change, .begin, .flush true, .flushed true, .expire, .load true,
    .save true] = { now := 4, view := 4, mem := 3, watch := .fired, session := false, results := [false] } ∧
    Follow.run { now := 3, view := 3, mem := 3 } [.begin, .flush true, .flushed true, .load true, .expire, .save true] =
      { now := 3, view := 3, mem := 3, dirty := true, session := false, results := [false] } := by decide

/-- Two changes by others that a server with an expired session never hears of, and an operation of its
own that fails. -/
example : Follow.run { now := 3, view := 3, mem := 3 } [.expire, .change, .see, .tell true, .begin, .flush true,
    .change] = { now := 5, view := 3, mem := 3, session := false, results := [false] } := by decide

/-- Defect: when the `zoo_wexists` of the handler fails, for whatever reason, the watch is gone for good.
However many changes there are, the server only sees the map when it runs an operation itself. -/
theorem C94_watch_lost_for_good (s : Follow) (h : s.watch = .gap) (evs : List FEv)
    (no : ∀ ok, .load ok ∉ evs) (o : s.op ≠ .loaded) :
    ((s.step (.arm false)).run evs).watch = .lost ∧ ((s.step (.arm false)).run evs).mem = s.mem := by
  have key : ∀ (t : Follow) (e : FEv), t.watch = .lost → t.op ≠ .loaded → (∀ ok, e ≠ .load ok) →
      (t.step e).watch = .lost ∧ (t.step e).mem = t.mem ∧ (t.step e).op ≠ .loaded := by
    intro t e hw ho hl
    cases e <;> simp only [Follow.step, hw, FWatch.fire, Follow.fail] <;> (try split) <;> (try split) <;> simp_all
  have main : ∀ (evs : List FEv) (t : Follow), t.watch = .lost → (∀ ok, .load ok ∉ evs) → t.op ≠ .loaded →
      (t.run evs).watch = .lost ∧ (t.run evs).mem = t.mem := by
    intro evs
    induction evs with
    | nil => intro t h _ _; exact ⟨h, rfl⟩
    | cons e l ih =>
      intro t h no o
      obtain ⟨a, b, c⟩ := key t e h o (fun ok he => no ok (by rw [he]; exact List.mem_cons_self ..))
      obtain ⟨a', b'⟩ := ih _ a (fun ok hm => no ok (List.mem_cons_of_mem _ hm)) c
      exact ⟨a', b'.trans b⟩
  have e : s.step (.arm false) = { s with watch := .lost } := by
    simp only [Follow.step, if_pos h]
    simp
  rw [e]
  exact main evs _ rfl no o

/-- Defect: a change that is seen after the handler has loaded and before it has set the watch again is not
reported: nothing is left to do, and the server is behind. -/
theorem C94_change_in_gap (s : Follow) (h : s.watch = .fired) (hs : s.session = true) (o : s.op = .idle)
    (hv : s.view < s.now) (evs : List FEv) (he : ∀ e ∈ evs, e = .see ∨ e = .tell true) :
    let r := s.run (.tell true :: evs ++ [.arm true])
    r.watch = .armed ∧ r.mem = s.view ∧ (.see ∈ evs → r.mem < r.view) ∧ r.now = s.now := by
  have key : ∀ (evs : List FEv) (t : Follow), t.watch = .gap → t.session = true → (∀ e ∈ evs, e = .see ∨ e = .tell true) →
      (t.run evs).watch = .gap ∧ (t.run evs).session = true ∧ (t.run evs).mem = t.mem ∧ t.view ≤ (t.run evs).view ∧
        (.see ∈ evs → t.view < t.now → t.view < (t.run evs).view) ∧ (t.run evs).now = t.now := by
    intro evs
    induction evs with
    | nil => intro t h1 h2 _; exact ⟨h1, h2, rfl, Nat.le_refl _, fun h => by simp at h, rfl⟩
    | cons e l ih =>
      intro t h1 h2 h3
      have h3' : ∀ e ∈ l, e = .see ∨ e = .tell true := fun e he => h3 e (List.mem_cons_of_mem _ he)
      rcases h3 e List.mem_cons_self with rfl | rfl
      · by_cases hlt : t.view < t.now
        · have e1 : t.step .see = { t with view := t.view + 1 } := by
            simp only [Follow.step]
            rw [if_pos ⟨h2, hlt⟩]
            cases t; simp only at h1; subst h1; rfl
          obtain ⟨i1, i2, i3, i4, i5, i6⟩ := ih (t.step .see) (by rw [e1]; exact h1) (by rw [e1]; exact h2) h3'
          have hv : (t.step .see).view = t.view + 1 := by rw [e1]
          refine ⟨i1, i2, i3.trans (by rw [e1]), ?_, fun _ _ => ?_, i6.trans (by rw [e1])⟩
          · show t.view ≤ ((t.step .see).run l).view
            omega
          · show t.view < ((t.step .see).run l).view
            omega
        · have e1 : t.step .see = t := by
            simp only [Follow.step]; rw [if_neg (fun h => hlt h.2)]
          obtain ⟨i1, i2, i3, i4, i5, i6⟩ := ih t h1 h2 h3'
          have : t.run (.see :: l) = t.run l := by show (t.step .see).run l = _; rw [e1]
          rw [this]
          exact ⟨i1, i2, i3, i4, fun _ h => absurd h hlt, i6⟩
      · have e1 : t.step (.tell true) = t := by
          simp only [Follow.step]; rw [if_neg (fun h => by rw [h1] at h; simp at h)]
        obtain ⟨i1, i2, i3, i4, i5, i6⟩ := ih t h1 h2 h3'
        have : t.run (.tell true :: l) = t.run l := by show (t.step (.tell true)).run l = _; rw [e1]
        rw [this]
        exact ⟨i1, i2, i3, i4, fun hm => i5 (by simpa using hm), i6⟩
  have e0 : s.step (.tell true) = { s with mem := s.view, dirty := false, watch := .gap } := by
    simp only [Follow.step]
    rw [if_pos ⟨hs, h, by rw [o]; simp⟩]
    simp
  obtain ⟨i1, i2, i3, i4, i5, i6⟩ := key evs (s.step (.tell true)) (by rw [e0]) (by rw [e0]; exact hs) he
  have er : s.run (.tell true :: evs ++ [.arm true]) = ((s.step (.tell true)).run evs).step (.arm true) := by
    simp [Follow.run, List.foldl_append]
  have ea : ((s.step (.tell true)).run evs).step (.arm true) = { (s.step (.tell true)).run evs with watch := .armed } := by
    generalize (s.step (.tell true)).run evs = t at i1 i2
    simp only [Follow.step, if_pos i1, i2]
    simp
  dsimp only
  rw [er, ea]
  refine ⟨rfl, ?_, fun hm => ?_, ?_⟩
  · exact i3.trans (by rw [e0])
  · have := i5 hm (by rw [e0]; exact hv)
    show ((s.step (.tell true)).run evs).mem < ((s.step (.tell true)).run evs).view
    rw [i3]
    rw [e0] at this ⊢
    exact this
  · exact i6.trans (by rw [e0])

example : Follow.run { now := 3, view := 3, mem := 3 } [.change, .change, .see, .tell true, .see, .arm true] =
    { now := 5, view := 5, mem := 4 } := by decide

example : Follow.run { now := 3, view := 3, mem := 3 } [.change, .see, .tell true, .arm false, .change, .see,
    .change, .see, .tell true, .arm true] = { now := 6, view := 6, mem := 4, watch := .lost } := by decide

/-- Defect: when the load of the handler fails, the watch is set again and the change is forgotten: the
server is behind although it has been told of everything and nothing is left to do. -/
theorem C94_failed_update : Follow.run { now := 3, view := 3, mem := 3 }
    [.change, .see, .tell false, .arm true] = { now := 4, view := 4, mem := 3 } := by decide

/-- Defect: when a save fails, the operation fails, but its change stays in the memory of this server, which
goes on answering with it; nobody else has it. -/
theorem C94_unsaved_kept : Follow.run { now := 3, view := 3, mem := 3 }
    [.begin, .flush true, .flushed true, .load true, .save false] =
    { now := 3, view := 3, mem := 3, dirty := true, results := [false] } := by decide

/-! ### The node of the server itself -/

/-- `setup` succeeds exactly when no node of the name is there and some try, before they run out, is
answered, while none before it was carried out. -/
theorem C94_setup (n : Nat) (there : Bool) (l : List CreateAns) :
    createNode n there l = some (true, true) ↔
      there = false ∧ ∃ k post, k < n ∧ l = List.replicate k (.lost false) ++ .answered :: post := by
  induction n generalizing there l with
  | zero => simp [createNode]
  | succ n ih =>
    cases l with
    | nil => simp [createNode]
    | cons a l =>
      cases a with
      | answered =>
        cases there with
        | true => simp [createNode]
        | false =>
          simp only [createNode]
          constructor
          · intro; exact ⟨trivial, 0, l, by omega, rfl⟩
          · intro; rfl
      | lost done =>
        simp only [createNode, ih]
        constructor
        · rintro ⟨h, k, post, hk, e⟩
          simp only [Bool.or_eq_false_iff] at h
          exact ⟨h.1, k + 1, post, by omega, by rw [e, h.2, List.replicate_succ]; rfl⟩
        · rintro ⟨h, k, post, hk, e⟩
          cases k with
          | zero => simp at e
          | succ k =>
            rw [List.replicate_succ, List.cons_append] at e
            simp only [List.cons.injEq, CreateAns.lost.injEq] at e
            exact ⟨by rw [h, e.1]; rfl, k, post, by omega, e.2⟩

/-- Defect: if a try was carried out and its answer lost, the next try finds the node that this very
session made, and the server does not start; nor does it as long as the node of its last life is there. -/
theorem C94_own_node_refused (n k : Nat) (l : List CreateAns) :
    createNode n false (List.replicate k (.lost false) ++ .lost true :: l) ≠ some (true, true) ∧
    createNode n true l ≠ some (true, true) := by
  constructor
  · intro h
    obtain ⟨-, j, post, -, e⟩ := (C94_setup ..).1 h
    induction k generalizing j with
    | zero => cases j <;> simp [List.replicate_succ] at e
    | succ k ih =>
      cases j with
      | zero => simp [List.replicate_succ] at e
      | succ j =>
        simp only [List.replicate_succ, List.cons_append, List.cons.injEq, true_and] at e
        cases n with
        | zero => simp [createNode] at h
        | succ n =>
          refine ih ?_ j e
          have := h
          simp only [List.replicate_succ, List.cons_append, createNode, Bool.or_false] at this
          rw [C94_setup] at this ⊢
          obtain ⟨a, i, p, b, c⟩ := this
          exact ⟨a, i, p, by omega, c⟩
  · intro h; exact absurd ((C94_setup ..).1 h).1 (by simp)

example : createNode 10 false [.lost false, .lost false, .answered] = some (true, true) ∧
    createNode 10 false [.lost true, .answered] = some (false, true) := by decide

/-- The others go on: the node of a server that has broken down disappears with its session, and every change they make is
stored. -/
theorem C94_others_go_on (evs : List FEv) (s : Follow) (h : s.op = .broken) :
    (s.run evs).now = s.now + (evs.filter (· = .change)).length := by
  induction evs generalizing s with
  | nil => rfl
  | cons e l ih =>
    have st : (s.step e).op = .broken ∧ (s.step e).now = s.now + (if e = .change then 1 else 0) := by
      cases e <;> simp only [Follow.step, h] <;> (try split) <;> simp_all [FOp.holds]
    show ((s.step e).run l).now = _
    rw [ih _ st.1, st.2, List.filter_cons]
    by_cases c : e = .change
    · simp [c]; omega
    · simp [c]

/-- One server breaks down, another makes two changes. -/
example : (Follow.run { now := 3, view := 3, mem := 3 } [.begin, .flush true, .expire, .change, .begin, .change]).now = 5 := by
  decide

end Flare
