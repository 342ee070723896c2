import Verif.Lemmas.Watch
import Verif.Props.Monitor
import Verif.Lemmas.TextLines

namespace Flare

/-! ### C89: a node with a broken or hanging storage is found out, and a sound one is left alone -/

theorem watch_run (l : List WEv) :
    ∀ (w : Watch) (s : Accesses) (L : List GoingOn), WatchInv w s L → s.Fine l →
      (∃ L', WatchInv (w.run l) (s.run l) L') ∧
      ((w.run l).broken = true ↔ w.broken = true ∨ ∃ l1 e l2, l = l1 ++ e :: l2 ∧ (s.run l1).Breaks e) := by
  induction l with
  | nil =>
    intro w s L h _
    refine ⟨⟨L, h⟩, ?_⟩
    constructor
    · exact .inl
    · rintro (h | ⟨l1, e, l2, h0, -⟩)
      · exact h
      · simp at h0
  | cons e l ih =>
    intro w s L h hf
    obtain ⟨ha, hf⟩ := hf
    obtain ⟨L', h'⟩ := h.step ha
    obtain ⟨i1, i2⟩ := ih (w.step e) (s.step e) L' h' hf
    refine ⟨i1, ?_⟩
    have hb := h.breaks ha
    show ((w.step e).run l).broken = true ↔ _
    rw [i2, hb]
    constructor
    · rintro ((h1 | h1) | ⟨l1, e1, l2, rfl, h1⟩)
      · exact .inl h1
      · exact .inr ⟨[], e, l, rfl, h1⟩
      · exact .inr ⟨e :: l1, e1, l2, rfl, h1⟩
    · rintro (h1 | ⟨l1, e1, l2, h0, h1⟩)
      · exact .inl (.inl h1)
      · cases l1 with
        | nil =>
          simp only [List.nil_append, List.cons.injEq] at h0
          obtain ⟨rfl, rfl⟩ := h0
          exact .inl (.inr h1)
        | cons x l1 =>
          simp only [List.cons_append, List.cons.injEq] at h0
          obtain ⟨rfl, rfl⟩ := h0
          exact .inr ⟨l1, e1, l2, rfl, h1⟩

theorem init_watchInv (on : Bool) (interval warn ng : UInt32) :
    WatchInv (Watch.init on interval warn ng) (Accesses.init on interval warn ng) [] :=
  ⟨rfl, rfl, rfl, fun _ h => (List.not_mem_nil h).elim, List.nodup_nil, List.nodup_nil, rfl, rfl, rfl⟩

/-- The node reports its storage as broken exactly if the storage reported an error, or the polling thread looked while
an access had been going on for longer than the threshold for warnings of its beginning and the threshold for errors
of the time of the look. -/
theorem C89_broken (on : Bool) (interval warn ng : UInt32) (l : List WEv)
    (hf : (Accesses.init on interval warn ng).Fine l) :
    ((Watch.init on interval warn ng).run l).broken = true ↔
      ∃ l1 e l2, l = l1 ++ e :: l2 ∧ ((Accesses.init on interval warn ng).run l1).Breaks e := by
  have := (watch_run l _ _ [] (init_watchInv on interval warn ng) hf).2
  rw [this]
  simp [Watch.init]

/-- Every access that is going on is in the map once, with its beginning and its threshold, and nothing else is: an
access that ends takes nothing away from another one. -/
theorem C89_watched (on : Bool) (interval warn ng : UInt32) (l : List WEv)
    (hf : (Accesses.init on interval warn ng).Fine l) :
    ((Watch.init on interval warn ng).run l).map.map (fun x => (x.2.start.nanos, x.2.warn)) =
      ((Accesses.init on interval warn ng).run l).going.map (fun x => (x.2.1, msecToTimespec x.2.2)) ∧
    (((Watch.init on interval warn ng).run l).map.map (·.1)).Nodup := by
  obtain ⟨L, h⟩ := (watch_run l _ _ [] (init_watchInv on interval warn ng) hf).1
  refine ⟨by simp [h.map, h.going], ?_⟩
  have : (L.map fun g => (g.id, (⟨g.start, msecToTimespec g.warn⟩ : Watched))).map (·.1) = L.map (·.id) := by simp
  rw [h.map, this]
  exact h.ids

/-- An access that does not end is found out: if it is going on at a look, with polling on, later than both thresholds
after its beginning, the node reports its storage as broken from then on. -/
theorem C89_hanging (on : Bool) (interval warn ng : UInt32) (l1 l2 : List WEv) (a : Nat) (t w : Nat) (now : Timespec)
    (hf : (Accesses.init on interval warn ng).Fine (l1 ++ .poll now :: l2))
    (hp : ((Accesses.init on interval warn ng).run l1).polling = true)
    (hg : ∃ x ∈ ((Accesses.init on interval warn ng).run l1).going, x.1 = a ∧ x.2.1 = t ∧ x.2.2.toNat = w)
    (hl : (t : Int) + (max w ((Accesses.init on interval warn ng).run l1).ng.toNat : Nat) * 1000000 < now.nanos) :
    ((Watch.init on interval warn ng).run (l1 ++ .poll now :: l2)).broken = true := by
  rw [C89_broken on interval warn ng _ hf]
  refine ⟨l1, .poll now, l2, rfl, hp, ?_⟩
  obtain ⟨x, hx, -, h2, h3⟩ := hg
  refine ⟨x, hx, ?_⟩
  rw [h2, h3]
  omega

/-- 3 seconds after it began, the access is found out by a look, though the one that began with it has ended. -/
example :
    let l : List WEv := [.start 1 ⟨5, 0⟩, .start 2 ⟨5, 0⟩, .finish 2, .poll ⟨6, 999999999⟩, .poll ⟨8, 1⟩]
    ((Watch.init true 1000 1000 2000).run (l.take 4)).broken = false ∧
    ((Watch.init true 1000 1000 2000).run l).broken = true ∧
    ((Watch.init true 1000 1000 2000).run l).map = [(0, ⟨⟨5, 0⟩, ⟨1, 0⟩⟩)] := by decide

/-- An access that began and ended in time, before every look, is not held against the node. -/
theorem C89_sound (on : Bool) (interval warn ng : UInt32) (l : List WEv)
    (hf : (Accesses.init on interval warn ng).Fine l) (h0 : WEv.fault ∉ l)
    (hl : ∀ l1 now l2, l = l1 ++ .poll now :: l2 → ∀ x ∈ ((Accesses.init on interval warn ng).run l1).going,
      now.nanos ≤ x.2.1 + ((Accesses.init on interval warn ng).run l1).ng.toNat * 1000000) :
    ((Watch.init on interval warn ng).run l).broken = false := by
  cases hb : ((Watch.init on interval warn ng).run l).broken with
  | false => rfl
  | true =>
    obtain ⟨l1, e, l2, rfl, h⟩ := (C89_broken on interval warn ng l hf).1 hb
    cases e with
    | fault => exact absurd (by simp) h0
    | poll now =>
      obtain ⟨-, x, hx, -, h2⟩ := h
      have := hl l1 now l2 rfl x hx
      omega
    | start a now => exact h.elim
    | finish a => exact h.elim
    | reload _ _ _ _ => exact h.elim

/-- Nothing but a restart ends it: once broken, always broken, and every ping is answered with an error. -/
theorem C89_for_good (w : Watch) (h : w.broken = true) (l : List WEv) (rest : Bytes) :
    (w.run l).broken = true ∧ pingRead (pingAnswer (w.run l).broken ++ rest) = false := by
  have hb : (w.run l).broken = true := by
    induction l generalizing w with
    | nil => exact h
    | cons e l ih =>
      apply ih (w.step e)
      cases e <;> simp only [Watch.step] <;> first | exact h | (split <;> simp [h])
  refine ⟨hb, ?_⟩
  rw [hb]
  have : pingAnswer true = ascii "SERVER_ERROR storage error" ++ crlf := by decide
  rw [this, pingRead, readLine_crlf (by decide)]
  show decide (cstr (ascii "SERVER_ERROR storage error" ++ [chNl]) = ascii "OK\n") = false
  decide

/-- A ping tells the status. -/
theorem C89_ping (b : Bool) (rest : Bytes) : pingRead (pingAnswer b ++ rest) = !b := by
  cases b with
  | true => exact (C89_for_good ⟨[], 0, [], 0, 0, false, true⟩ rfl [] rest).2
  | false =>
    have : pingAnswer false = ascii "OK" ++ crlf := by decide
    rw [this, pingRead, readLine_crlf (by decide)]
    show decide (cstr (ascii "OK" ++ [chNl]) = ascii "OK\n") = true
    decide

/-- The index server asks to take a broken node out at the check at which the threshold is reached, and at no check
asks to take it in again, whatever the node map says at each of them. -/
theorem C89_taken_out {t : Nat} (ht : 0 < t) (w : Watch) (h : w.broken = true) (l : List WEv) (rest : Bytes) :
    (∃ m m' r, (⟨t, 0⟩ : Mon).rounds (List.replicate (t - 1)
        (some false, .check (pingRead (pingAnswer (w.run l).broken ++ rest)))) = some m ∧
      m.step (some false) (.check (pingRead (pingAnswer (w.run l).broken ++ rest))) = some (m', r) ∧ .down ∈ r) ∧
    ∀ (m m' : Mon) (v : MonView) (r : List MonReq), 0 < m.threshold →
      m.step v (.check (pingRead (pingAnswer (w.run l).broken ++ rest))) = some (m', r) → .up ∉ r := by
  rw [(C89_for_good w h l rest).2]
  constructor
  · obtain ⟨m, h1, -, m', r, h2, h3⟩ := C45_every ht (t - 1)
    refine ⟨m, m', r, h1, h2, h3.2 ?_⟩
    rw [Nat.sub_add_cancel ht, Nat.mod_self]
  · intro m m' v r hm hs hu
    have := ((C45_up hm hs).1 hu).1
    cases this

example : (Mon.rounds ⟨3, 0⟩ [(some false, .check (pingRead (pingAnswer true))),
      (some false, .check (pingRead (pingAnswer true)))]).bind
      (·.step (some false) (.check (pingRead (pingAnswer true)))) = some (⟨3, 3⟩, [.down]) ∧
    (⟨3, 3⟩ : Mon).step (some true) (.check (pingRead (pingAnswer true))) = some (⟨3, 4⟩, []) := by decide +kernel

/-- The thresholds are zero unless they are set (/repo/src/flared/ini_option.cc:83-84): with the watch switched on and
nothing else, any access that is going on at a look, for however short a time, breaks the node for good. -/
theorem C89_default_breaks (interval : UInt32) (hi : interval ≠ 0) (a : Nat) (start now : Timespec)
    (h1 : start.Normal) (h2 : now.Normal) (h : start.nanos < now.nanos) (l : List WEv) :
    ((Watch.init true interval 0 0).run ([.start a start, .poll now, .finish a] ++ l)).broken = true := by
  have hf : (Accesses.init true interval 0 0).Fine [.start a start, .poll now] :=
    ⟨⟨fun x hx => (List.not_mem_nil hx).elim, by simp [Accesses.init], h1⟩, h2, trivial⟩
  have hb : ((Watch.init true interval 0 0).run [.start a start, .poll now]).broken = true := by
    rw [C89_broken true interval 0 0 _ hf]
    refine ⟨[.start a start], .poll now, [], rfl, ?_, (a, start.nanos, 0), ?_, ?_⟩
    · simp [Accesses.run, Accesses.step, Accesses.init, hi]
    · simp [Accesses.run, Accesses.step, Accesses.init]
    · simp only [Accesses.run, Accesses.step, Accesses.init, List.foldl_cons, List.foldl_nil, UInt32.toNat_zero]
      omega
  exact (C89_for_good _ hb (.finish a :: l) []).1

example : ((Watch.init true 1000 0 0).run [.start 7 ⟨1, 0⟩, .poll ⟨1, 1⟩, .finish 7]).broken = true := by decide

/-- The threshold for errors has no effect below the one for warnings: an access late for the first one but not for
the second is not looked at. -/
theorem C89_warn_hides (on : Bool) (interval warn ng : UInt32) (a : Nat) (start now : Timespec)
    (h1 : start.Normal) (h2 : now.Normal) (h : now.nanos ≤ start.nanos + warn.toNat * 1000000) :
    ((Watch.init on interval warn ng).run [.start a start, .poll now]).broken = false := by
  have hf : (Accesses.init on interval warn ng).Fine [.start a start, .poll now] :=
    ⟨⟨fun x hx => (List.not_mem_nil hx).elim, by simp [Accesses.init], h1⟩, h2, trivial⟩
  cases hb : ((Watch.init on interval warn ng).run [.start a start, .poll now]).broken with
  | false => rfl
  | true =>
    obtain ⟨l1, e, l2, hl, h⟩ := (C89_broken on interval warn ng _ hf).1 hb
    cases l1 with
    | nil =>
      simp only [List.nil_append, List.cons.injEq] at hl
      rw [← hl.1] at h
      exact h.elim
    | cons x l1 =>
      simp only [List.cons_append, List.cons.injEq] at hl
      obtain ⟨rfl, hl⟩ := hl
      cases l1 with
      | nil =>
        simp only [List.nil_append, List.cons.injEq] at hl
        rw [← hl.1] at h
        obtain ⟨-, y, hy, h3, -⟩ := h
        simp only [Accesses.run, Accesses.step, Accesses.init, List.foldl_cons, List.foldl_nil,
          List.mem_singleton] at hy
        rw [hy] at h3
        simp only at h3
        omega
      | cons z l1 => simp at hl

example : ((Watch.init true 1000 10000 2000).run [.start 7 ⟨1, 0⟩, .poll ⟨10, 0⟩]).broken = false := by decide

theorem genId_next (map : List (UInt64 × Watched)) : ∀ (n : Nat) (c id next : UInt64), genId map n c = some (id, next) →
    next = id + 1 ∧ ∃ k, k < n ∧ id = c + UInt64.ofNat k
  | 0, _, _, _, h => by cases h
  | n + 1, c, id, next, h => by
    unfold genId at h
    by_cases hc : map.any (·.1 = c)
    · rw [if_pos hc] at h
      obtain ⟨h1, k, hk, h2⟩ := genId_next map n (c + 1) id next h
      refine ⟨h1, k + 1, by omega, ?_⟩
      rw [h2, UInt64.ofNat_add, UInt64.add_assoc, UInt64.add_comm 1]
      rfl
    · rw [if_neg hc] at h
      cases h
      exact ⟨rfl, 0, by omega, by simp⟩

theorem Watch.rest_next (s : Watch) (l : List WEv) (h : ∀ e ∈ l, ∀ a t, e ≠ .start a t) :
    (s.run l).next = s.next ∧ (s.run l).map.length ≤ s.map.length := by
  induction l generalizing s with
  | nil => exact ⟨rfl, Nat.le_refl _⟩
  | cons e l ih =>
    obtain ⟨h1, h2⟩ := ih (s.step e) (fun x hx => h x (List.mem_cons_of_mem _ hx))
    have : (s.step e).next = s.next ∧ (s.step e).map.length ≤ s.map.length := by
      cases e with
      | start a t => exact absurd rfl (h _ List.mem_cons_self a t)
      | finish a =>
        cases hf : s.held.find? (·.1 = a) with
        | none => simp [Watch.step, hf]
        | some x => simp only [Watch.step, hf]; exact ⟨trivial, List.length_filter_le _ _⟩
      | fault => exact ⟨rfl, Nat.le_refl _⟩
      | poll t => unfold Watch.step; simp only; split <;> exact ⟨rfl, Nat.le_refl _⟩
      | reload _ _ _ _ => exact ⟨rfl, Nat.le_refl _⟩
    exact ⟨h1.trans this.1, Nat.le_trans h2 this.2⟩

/-- Two accesses of which one begins after the other do not get the same number, even if the first has ended in between, as long
as the map has less than 2^64 - 3 accesses. -/
theorem C89_next_number (s : Watch) (a b : Nat) (t t' : Timespec) (l : List WEv) (h : ∀ e ∈ l, ∀ a t, e ≠ .start a t)
    (hs : s.map.length + 3 < 2 ^ 64) (i j : UInt64) (x y : List (Nat × UInt64))
    (hi : (s.step (.start a t)).held = (a, i) :: x) (hi' : s.held = x)
    (hj : (((s.step (.start a t)).run l).step (.start b t')).held = (b, j) :: y)
    (hj' : ((s.step (.start a t)).run l).held = y) : i ≠ j := by
  have h1 : (s.step (.start a t)).next = i + 1 ∧ (s.step (.start a t)).map.length ≤ s.map.length + 1 := by
    cases hg : genId s.map (s.map.length + 1) s.next with
    | none => simp only [Watch.step, hg, hi'] at hi; exact absurd hi (by simp)
    | some p =>
      obtain ⟨id, nx⟩ := p
      simp only [Watch.step, hg, List.cons.injEq, Prod.mk.injEq, true_and] at hi ⊢
      refine ⟨?_, ?_⟩
      · rw [(genId_next _ _ _ _ _ hg).1, hi.1]
      · simp only [List.length_cons]; have := List.length_filter_le (fun x : UInt64 × Watched => decide (x.1 ≠ id)) s.map; omega
  obtain ⟨h2, h3⟩ := Watch.rest_next (s.step (.start a t)) l h
  generalize (s.step (.start a t)).run l = u at *
  cases hg : genId u.map (u.map.length + 1) u.next with
  | none => simp only [Watch.step, hg, hj'] at hj; exact absurd hj (by simp)
  | some p =>
    obtain ⟨id, nx⟩ := p
    simp only [Watch.step, hg, List.cons.injEq, Prod.mk.injEq, true_and] at hj
    obtain ⟨_, k, hk, e⟩ := genId_next _ _ _ _ _ hg
    intro hij
    rw [h2, h1.1, hj.1, ← hij] at e
    have e' := congrArg UInt64.toNat e
    rw [UInt64.toNat_add, UInt64.toNat_add, UInt64.toNat_ofNat'] at e'
    have := i.toNat_lt
    have hk' : k < 2 ^ 64 - 1 := by omega
    have one : (1 : UInt64).toNat = 1 := rfl
    rw [one, Nat.mod_eq_of_lt (show k < 2 ^ 64 by omega)] at e'
    omega

example :
    let s := Watch.init true 1 0 0
    (s.step (.start 0 ⟨5, 0⟩)).held = [(0, 0)] ∧
      (((s.step (.start 0 ⟨5, 0⟩)).run [.finish 0]).step (.start 1 ⟨6, 0⟩)).held = [(1, 1)] := by decide

end Flare
