import Verif.Model.FdLimit

/-! # C109: enough files for the connections that are allowed -/

namespace Flare

/-- The files are enough: two for each connection and 16 more. -/
def FdServer.Enough (s : FdServer) : Prop := s.conns * 2 + 16 ≤ s.limits.cur

/-- A `max-connection` that is neither negative nor absurd. -/
def SaneConns (i : Int) : Prop := 0 ≤ i ∧ i < 2147483640

theorem wantedFds_sane {i : Int} (h : SaneConns i) : wantedFds (toUInt32 i) = toUInt32 i * 2 + 16 ∧ (toUInt32 i : Int) = i := by
  obtain ⟨h0, h1⟩ := h
  unfold wantedFds toUInt32
  omega

theorem setResourceLimit_ge {k : FdKernel} {l l' : FdLimits} {m : Nat} (h : setResourceLimit k l m = some l') :
    wantedFds m ≤ l'.cur ∧ l.cur ≤ l'.cur ∧ l.max ≤ l'.max := by
  unfold setResourceLimit FdKernel.set at h
  dsimp only at h
  (repeat' split at h) <;> simp only [Option.some.injEq, reduceCtorEq] at h <;> subst h <;> (try dsimp only) <;> omega

/-- **C109**: a server that starts with a sane `max-connection` has enough files for it. -/
theorem C109_start {k : FdKernel} {l : FdLimits} {i : Int} (hi : SaneConns i) {s : FdServer}
    (h : startFds k l i = some s) : s.Enough ∧ (s.conns : Int) = i := by
  unfold startFds at h
  cases e : setResourceLimit k l (toUInt32 i) with
  | none => simp [e] at h
  | some l' =>
    rw [e] at h
    cases h
    have h1 := setResourceLimit_ge e
    have h2 := wantedFds_sane hi
    refine ⟨?_, h2.2⟩
    show toUInt32 i * 2 + 16 ≤ l'.cur
    omega

example : startFds ⟨true, 1048576⟩ ⟨1024, 4096⟩ 4000 = some ⟨⟨8016, 8016⟩, 4000⟩ := by decide

/-- **C109**: when it starts: exactly if the files are enough already, or the hard limit is and the kernel takes it, or
the process may raise the hard limit as far as the kernel goes. -/
theorem C109_starts_iff {k : FdKernel} {l : FdLimits} {i : Int} (hi : SaneConns i) :
    (startFds k l i).isSome ↔
      i * 2 + 16 ≤ l.cur ∨ (i * 2 + 16 ≤ l.max ∧ l.max ≤ k.nrOpen) ∨
        (k.privileged = true ∧ l.max < i * 2 + 16 ∧ i * 2 + 16 ≤ k.nrOpen) := by
  obtain ⟨h1, h2⟩ := wantedFds_sane hi
  obtain ⟨m, hm⟩ : ∃ m, m = toUInt32 i := ⟨_, rfl⟩
  rw [← hm] at h1 h2
  unfold startFds setResourceLimit FdKernel.set
  rw [← hm, h1, ← h2]
  dsimp only
  by_cases a : l.cur < m * 2 + 16
  · rw [if_pos a]
    by_cases b : l.max < m * 2 + 16
    · rw [if_pos b, if_neg (by omega)]
      by_cases c : k.nrOpen < m * 2 + 16
      · rw [if_pos c]
        simp
        omega
      · rw [if_neg c]
        cases hk : k.privileged
        · simp [b]
          omega
        · simp
          omega
    · rw [if_neg b, if_neg (by omega)]
      by_cases c : k.nrOpen < l.max
      · rw [if_pos c]
        simp
        omega
      · rw [if_neg c, if_neg (by omega)]
        simp
        omega
  · rw [if_neg a]
    simp
    omega

/-- **C109**: the limits are never lowered, through all reloads. -/
theorem C109_never_lowered (k : FdKernel) (s : FdServer) (is : List Int) :
    s.limits.cur ≤ (s.reloads k is).limits.cur ∧ s.limits.max ≤ (s.reloads k is).limits.max := by
  induction is generalizing s with
  | nil => exact ⟨Nat.le_refl _, Nat.le_refl _⟩
  | cons i is ih =>
    have h := ih (s.reload k i)
    have h' : s.limits.cur ≤ (s.reload k i).limits.cur ∧ s.limits.max ≤ (s.reload k i).limits.max := by
      unfold FdServer.reload
      cases e : setResourceLimit k s.limits (toUInt32 i) with
      | none => exact ⟨Nat.le_refl _, Nat.le_refl _⟩
      | some l => exact (setResourceLimit_ge e).2
    exact ⟨Nat.le_trans h'.1 h.1, Nat.le_trans h'.2 h.2⟩

/-- **C109**: a server with enough files for its first `max-connection` has enough for the last one after every history
of reloads, if it may raise its limits and the kernel goes as far as the last one.

Missing: a server without the privilege (`C109_reload_short`), and values that are not sane (`C109_wrapped`). -/
theorem C109_enough_partial {k : FdKernel} (hk : k.privileged = true) {s : FdServer} (is : List Int) {i : Int}
    (hi : SaneConns i) (hn : i * 2 + 16 ≤ k.nrOpen) (hm : (s.reloads k is).limits.max ≤ k.nrOpen) :
    (s.reloads k (is ++ [i])).Enough ∧ ((s.reloads k (is ++ [i])).conns : Int) = i := by
  obtain ⟨t, ht⟩ : ∃ t, t = s.reloads k is := ⟨_, rfl⟩
  have e : s.reloads k (is ++ [i]) = t.reload k i := by simp [FdServer.reloads, ht]
  rw [← ht] at hm
  have hs : (startFds k t.limits i).isSome := (C109_starts_iff hi).mpr (by
    by_cases h : i * 2 + 16 ≤ t.limits.max
    · exact .inr (.inl ⟨h, hm⟩)
    · exact .inr (.inr ⟨hk, by omega, hn⟩))
  obtain ⟨u, hu⟩ := Option.isSome_iff_exists.mp hs
  have hu' : t.reload k i = u := by
    unfold startFds at hu
    unfold FdServer.reload
    cases e : setResourceLimit k t.limits (toUInt32 i) with
    | none => simp [e] at hu
    | some l => rw [e] at hu; cases hu; rfl
  rw [e, hu']
  exact C109_start hi hu

example : (FdServer.reloads ⟨true, 1048576⟩ ⟨⟨1024, 4096⟩, 100⟩ [3000, 10, 5000]) = ⟨⟨10016, 10016⟩, 5000⟩ := by decide

/-- **C109**: a reload takes a `max-connection` that the files are not enough for: without the privilege, every value
above the hard limit counts from now on, and the limits stay. -/
theorem C109_reload_short {k : FdKernel} (hk : k.privileged = false) {s : FdServer} (hl : s.limits.cur ≤ s.limits.max)
    {i : Int} (hi : SaneConns i) (h : s.limits.max < i * 2 + 16) :
    ((s.reload k i).conns : Int) = i ∧ (s.reload k i).limits = s.limits ∧ ¬ (s.reload k i).Enough := by
  obtain ⟨h1, h2⟩ := wantedFds_sane hi
  have hn : startFds k s.limits i = none := by
    have := (not_congr (C109_starts_iff (k := k) (l := s.limits) hi)).mpr (by rw [hk]; simp; omega)
    simpa using this
  have e : setResourceLimit k s.limits (toUInt32 i) = none := by
    unfold startFds at hn
    simpa using hn
  have hr : s.reload k i = ⟨s.limits, toUInt32 i⟩ := by unfold FdServer.reload; rw [e]; rfl
  rw [hr]
  refine ⟨h2, rfl, ?_⟩
  show ¬ toUInt32 i * 2 + 16 ≤ s.limits.cur
  omega

example : FdServer.reload ⟨false, 1048576⟩ ⟨⟨1024, 4096⟩, 100⟩ 5000 = ⟨⟨1024, 4096⟩, 5000⟩ := by decide

/-- **C109**: the same value that a running server takes keeps it from starting again. -/
theorem C109_no_restart {k : FdKernel} (hk : k.privileged = false) {l : FdLimits} (hl : l.cur ≤ l.max) {i : Int}
    (hi : SaneConns i) (h : l.max < i * 2 + 16) : startFds k l i = none := by
  have := (not_congr (C109_starts_iff (k := k) (l := l) hi)).mpr (by rw [hk]; simp; omega)
  simpa using this

/-- **C109**: the eight largest values of `max-connection` and the values from -8 to -1 overflow: the server asks for
less than 16 files and starts with what it has, and then allows more than two thousand million connections. -/
theorem C109_wrapped {k : FdKernel} {l : FdLimits} (hl : 14 ≤ l.cur) {i : Int}
    (hi : (2147483640 ≤ i ∧ i ≤ 2147483647) ∨ (-8 ≤ i ∧ i < 0)) :
    ∃ s, startFds k l i = some s ∧ s.limits = l ∧ 2147483640 ≤ s.conns := by
  have hw : wantedFds (toUInt32 i) ≤ 14 ∧ 2147483640 ≤ toUInt32 i := by
    unfold wantedFds toUInt32
    omega
  refine ⟨⟨l, toUInt32 i⟩, ?_, rfl, hw.2⟩
  unfold startFds setResourceLimit
  rw [if_neg (by omega)]
  rfl

example : startFds ⟨false, 1048576⟩ ⟨1024, 4096⟩ (-1) = some ⟨⟨1024, 4096⟩, 4294967295⟩ := by decide

end Flare
