import Verif.Lemmas.Bwlimit

/-! Property theorems about the bandwidth limiter: C57.

The limit is in units of 1024 bytes per second; the code takes a second for 976 times 1024
microseconds. -/
namespace Flare

/-- Without a limit there is no sleep and nothing is counted. -/
theorem C57_unlimited (b : Bw) (h : b.bwlimit = 0) (bytes : Nat) (now wake : Int) :
    b.call bytes now wake = some (b, none) := if_pos (Or.inl h)

/-- For every sequence of calls of a new limiter, whatever `usleep` does: the bytes written are
covered by the time that has passed, by the debt that is still noted, and by a rounding error per
sleep. -/
theorem C57_accounting (limit : UInt64) (h0 : limit ≠ 0) (hl : limit.toNat < 2 ^ 63) (t : Int)
    (l : List BwCall) (ht : BwTimely t l) (b : Bw) (ss : List BwSlept)
    (h : (Bw.new limit).calls l = some (b, ss)) :
    976 * (bwBytes l : Int) ≤ limit.toNat * (b.last t - t) + 976 * b.total +
      bwSleeps ss * (limit.toNat + 975) := by
  have := (calls_spec (b := Bw.new limit) t t hl (Or.inl (Int.le_refl 0)) (Int.le_refl _) ht h h0).1
  simpa [Bw.new, Bw.last] using this

/-- If no sleep is cut short, the bytes written up to any call are at most what the limit allows for
the time that has passed, plus a tenth of a second, up to a rounding error of one in 10^5.  Missing: sleeps can be cut
(`C57_sleep_truncated`), and the clock is assumed not to go back (`C57_clock_set_back`). -/
theorem C57_rate_partial (limit : UInt64) (h0 : limit ≠ 0) (hl : limit.toNat < 2 ^ 63) (t : Int)
    (l : List BwCall) (ht : BwTimely t l) (b : Bw) (ss : List BwSlept)
    (h : (Bw.new limit).calls l = some (b, ss)) (hf : BwFull ss) :
    100000 * (976 * (bwBytes l : Int)) ≤
      (100000 * limit.toNat + limit.toNat + 975) * (b.last t - t) + 10000000000 * limit.toNat := by
  obtain ⟨h1, h2, h3, -⟩ :=
    calls_spec (b := Bw.new limit) t t hl (Or.inl (Int.le_refl 0)) (Int.le_refl _) ht h h0
  have e1 : (Bw.new limit).total = 0 := rfl
  have e2 : (Bw.new limit).last t = t := rfl
  have e3 : (Bw.new limit).bwlimit = limit := rfl
  rw [e1, e2, e3] at h1
  have h2 := h2 hf (by rw [e1]; omega)
  rw [e3] at h2
  have h3 := h3 hf
  rw [e2] at h3
  have hln : (0 : Int) ≤ limit.toNat := Int.natCast_nonneg _
  have := Int.mul_le_mul_of_nonneg_right h3 (show (0 : Int) ≤ limit.toNat + 975 by omega)
  linarith

/-- A call asks for no more sleep than the bytes written are worth: the limiter never makes a dump
slower than the limit.  Missing: a clock that is set back, `C57_clock_set_back`. -/
theorem C57_not_slower_partial (limit : UInt64) (h0 : limit ≠ 0) (hl : limit.toNat < 2 ^ 63) (t : Int)
    (l : List BwCall) (ht : BwTimely t l) (b : Bw) (ss : List BwSlept)
    (h : (Bw.new limit).calls l = some (b, ss)) :
    limit.toNat * bwSlept ss ≤ 976 * (bwBytes l : Int) := by
  have := (calls_spec (b := Bw.new limit) t t hl (Or.inl (Int.le_refl 0)) (Int.le_refl _) ht h h0).2.2.2
  have e1 : (Bw.new limit).total = 0 := rfl
  have e3 : (Bw.new limit).bwlimit = limit := rfl
  rw [e1, e3] at this
  omega

/-! 100 kB/s: a value of 50000 bytes asks for 0.488 s of sleep; the third value asks for 0.12 s and
sleeps longer, which is credited. -/
example : (Bw.new 100).calls [⟨50000, 1000000, 1488000⟩, ⟨4000, 1500000, 1500000⟩,
    ⟨20000, 1600000, 1900000⟩] =
    some (⟨100, -18211, some 1900000⟩, [some (488000, 488000), none, some (122253, 300000)]) := by
  decide
example : BwTimely 1000000 [⟨50000, 1000000, 1488000⟩, ⟨4000, 1500000, 1500000⟩,
    ⟨20000, 1600000, 1900000⟩] := by simp [BwTimely]

/-- Calls with ordinary numbers stay in the range of `long`. -/
theorem C57_defined (b : Bw) (bytes : Nat) (now wake : Int) (hl : b.bwlimit.toNat ≤ 2 ^ 31)
    (h0 : -(2 ^ 61) ≤ b.total) (h1 : 976 * b.total ≤ 100000 * b.bwlimit.toNat) (hb : bytes ≤ 2 ^ 32)
    (hp : b.last now ≤ now) (hw : now ≤ wake)
    (h2 : (now - b.last now) * b.bwlimit.toNat < 2 ^ 61) (h3 : (wake - now) * b.bwlimit.toNat < 2 ^ 61)
    (hn : b.prior = none → 0 ≤ b.total) : b.call bytes now wake ≠ none := by
  by_cases hz : b.bwlimit = 0 ∨ bytes = 0
  · rw [Bw.call, if_pos hz]; nofun
  · have hlt : b.bwlimit.toNat < 2 ^ 63 := by omega
    have hln : (0 : Int) ≤ b.bwlimit.toNat := Int.natCast_nonneg _
    have hl' : (b.bwlimit.toNat : Int) ≤ 2 ^ 31 := by omega
    have hbi : (bytes : Int) ≤ 2 ^ 32 := by omega
    have fits : ∀ x : Int, -(2 ^ 63) ≤ x → x < 2 ^ 63 → inLong x = some x := fun x ha hb => if_pos ⟨ha, hb⟩
    have hd : ∃ d, b.debt bytes now = some d := by
      unfold Bw.debt
      rw [fits _ (by omega) (by omega)]
      dsimp only
      cases hpr : b.prior with
      | none => exact ⟨_, rfl⟩
      | some prior =>
        have e : b.last now = prior := by simp [Bw.last, hpr]
        rw [e] at hp h2
        dsimp only
        rw [longLimit_eq b hlt]
        have hx0 : 0 ≤ (now - prior) * b.bwlimit.toNat := Int.mul_nonneg (by omega) hln
        have hb := tdiv_nonneg_bounds _ hx0
        generalize (now - prior) * (b.bwlimit.toNat : Int) = x at *
        rw [fits x (by omega) (by omega)]
        dsimp only
        rw [fits _ (by omega) (by omega)]
        exact ⟨_, rfl⟩
    obtain ⟨d, hd⟩ := hd
    have h0' : 0 ≤ b.total ∨ b.prior ≠ none := by
      cases hpr : b.prior with
      | none => exact Or.inl (hn hpr)
      | some p => exact Or.inr nofun
    obtain ⟨hd0, -, hd2⟩ := debt_spec now hlt h0' hp hd
    have hs : ∃ sl, b.sleepTime d = some sl := by
      unfold Bw.sleepTime
      rw [fits _ (by omega) (by omega)]
      dsimp only
      have hq : ((d * 976) % 2 ^ 64).toNat / b.bwlimit.toNat ≤ (d * 976).toNat := by
        refine Nat.le_trans (Nat.div_le_self _ _) ?_
        omega
      generalize ((d * 976) % 2 ^ 64).toNat / b.bwlimit.toNat = m at *
      exact ⟨_, fits _ (by omega) (by omega)⟩
    obtain ⟨sl, hsl⟩ := hs
    have hl0 : b.bwlimit ≠ 0 := fun h => hz (Or.inl h)
    obtain ⟨hs1, hs2⟩ := sleepTime_spec hl0 hd0 hsl
    rw [Bw.call, if_neg hz, hd]
    dsimp only
    rw [hsl]
    dsimp only
    split
    · nofun
    · rw [longLimit_eq b hlt]
      have hx : (sl - (wake - now)) * (b.bwlimit.toNat : Int) =
          b.bwlimit.toNat * sl - (wake - now) * b.bwlimit.toNat := by
        rw [Int.sub_mul, Int.mul_comm]
      have hel : (0 : Int) ≤ (wake - now) * b.bwlimit.toNat := Int.mul_nonneg (by omega) hln
      have hsl0 : (0 : Int) ≤ b.bwlimit.toNat * sl := Int.mul_nonneg hln (by omega)
      rw [hx]
      generalize (b.bwlimit.toNat : Int) * sl = A at *
      generalize (wake - now) * (b.bwlimit.toNat : Int) = B at *
      rw [fits _ (by omega) (by omega)]
      nofun

/-- The limiter uses the wall clock: if it is set back by `d`, the next call wants to sleep for at
least `d`, however little is written. -/
theorem C57_clock_set_back (b b' : Bw) (hl0 : b.bwlimit ≠ 0) (hl : b.bwlimit.toNat < 2 ^ 63)
    (ht : 0 ≤ b.total) (p d wake : Int) (hp : b.prior = some p) (hd : 100000 ≤ d) (bytes : Nat)
    (hb : 1 ≤ bytes) (s : BwSlept) (h : b.call bytes (p - d) wake = some (b', s)) :
    ∃ sl, s = some (sl, wake - (p - d)) ∧ d ≤ sl := by
  have hln : (0 : Int) ≤ b.bwlimit.toNat := Int.natCast_nonneg _
  rw [Bw.call, if_neg (by intro hc; rcases hc with hc | hc; exacts [hl0 hc, by omega])] at h
  split at h
  · cases h
  · rename_i debt hdebt
    have hdebt' : 0 ≤ debt ∧ d * b.bwlimit.toNat < 976 * debt := by
      unfold Bw.debt at hdebt
      split at hdebt
      · cases hdebt
      · rename_i tot htot
        obtain ⟨rfl, -, -⟩ := inLong_some htot
        rw [hp, longLimit_eq b hl] at hdebt
        dsimp only at hdebt
        split at hdebt
        · cases hdebt
        · rename_i x hx
          obtain ⟨rfl, -, -⟩ := inLong_some hx
          split at hdebt
          · cases hdebt
          · rename_i tot' htot'
            obtain ⟨rfl, -, -⟩ := inLong_some htot'
            have e : (p - d - p) * (b.bwlimit.toNat : Int) = -(d * b.bwlimit.toNat) := by
              rw [show p - d - p = -d by omega, Int.neg_mul]
            have hd0 : 0 ≤ d * (b.bwlimit.toNat : Int) := Int.mul_nonneg (by omega) hln
            rw [e, Int.neg_tdiv] at hdebt
            have hb := tdiv_nonneg_bounds _ hd0
            generalize d * (b.bwlimit.toNat : Int) = x at *
            cases hdebt
            split <;> omega
    split at h
    · cases h
    · rename_i sl hsl
      obtain ⟨hs1, hs2⟩ := sleepTime_spec hl0 hdebt'.1 hsl
      have hge : d ≤ sl := by
        by_contra hc
        have : (b.bwlimit.toNat : Int) * (sl + 1) ≤ b.bwlimit.toNat * d :=
          Int.mul_le_mul_of_nonneg_left (by omega) hln
        rw [Int.mul_comm] at hdebt'
        omega
      rw [if_neg (by omega)] at h
      split at h
      · cases h
      · cases h; exact ⟨sl, rfl, hge⟩

/-- `usleep` takes 32 bits: a long sleep is cut (the rest stays noted as debt). -/
theorem C57_sleep_truncated :
    ∃ b, (Bw.new 1).call 5000000 1000000 586032704 = some (b, some (4880000000, 585032704)) ∧
      usleepArgument 4880000000 = 585032704 ∧ 0 < b.total := by
  exact ⟨⟨1, 4400581, some 586032704⟩, by decide, by decide, by decide⟩

/-- The copies that a node makes from all partitions at once get at most the limit together, if it
is at least one unit per partition. -/
theorem C57_parts (limit : Int) (n : Nat) (h : (n : Int) ≤ limit) (hn : 0 < n) :
    0 < partLimit limit n ∧ n * partLimit limit n ≤ limit := by
  unfold partLimit
  rw [if_neg (by omega), Int.tdiv_eq_ediv_of_nonneg (by omega)]
  have h1 : 1 ≤ limit / n := (Int.le_ediv_iff_mul_le (by omega)).2 (by omega)
  have h2 := Int.mul_ediv_self_le (x := limit) (k := (n : Int)) (by omega)
  rw [Int.max_eq_left h1]
  omega

example : partLimit 1000 3 = 333 := by decide

end Flare
