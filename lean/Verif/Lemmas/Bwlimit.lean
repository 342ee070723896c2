import Verif.Spec.Bwlimit
import Mathlib.Tactic.Linarith

/-! Lemmas on the bandwidth limiter. -/
namespace Flare

theorem tdiv_nonneg_bounds (x : Int) (h : 0 ≤ x) :
    976 * x.tdiv 976 ≤ x ∧ x ≤ 976 * x.tdiv 976 + 975 ∧ 0 ≤ x.tdiv 976 := by
  rw [Int.tdiv_eq_ediv_of_nonneg h]; omega

theorem tdiv_neg_bounds (x : Int) (h : x ≤ 0) : x ≤ 976 * x.tdiv 976 ∧ x.tdiv 976 ≤ 0 := by
  have := tdiv_nonneg_bounds (-x) (by omega)
  rw [Int.neg_tdiv] at this
  omega

theorem inLong_some {x y : Int} (h : inLong x = some y) : y = x ∧ -(2 ^ 63) ≤ x ∧ x < 2 ^ 63 := by
  unfold inLong at h
  split at h
  · cases h; exact ⟨rfl, ‹_›⟩
  · cases h

theorem longLimit_eq (b : Bw) (h : b.bwlimit.toNat < 2 ^ 63) : b.longLimit = b.bwlimit.toNat := by
  unfold Bw.longLimit
  have e : b.bwlimit.toInt64 = Int64.ofNat b.bwlimit.toNat := by
    apply Int64.toBitVec_inj.1
    simp
  rw [e, Int64.toInt_ofNat']
  have hs : (Int64.size : Int) = 18446744073709551616 := by decide
  rw [Int.bmod_eq_of_le] <;> omega

/-- The debt after time has passed. -/
theorem debt_spec {b : Bw} {bytes : Nat} {now d : Int} (t : Int) (hl : b.bwlimit.toNat < 2 ^ 63)
    (h0 : 0 ≤ b.total ∨ b.prior ≠ none) (hp : b.last t ≤ now) (h : b.debt bytes now = some d) :
    0 ≤ d ∧ 976 * (b.total + bytes) ≤ b.bwlimit.toNat * (now - b.last t) + 976 * d ∧
      d ≤ max b.total 0 + bytes := by
  unfold Bw.debt at h
  have hln : (0 : Int) ≤ b.bwlimit.toNat := Int.natCast_nonneg _
  split at h
  · cases h
  · rename_i tot ht
    obtain ⟨rfl, -, -⟩ := inLong_some ht
    split at h
    · rename_i hpr
      cases h
      have h0' : 0 ≤ b.total := h0.resolve_right (fun hn => hn hpr)
      have := Int.mul_nonneg hln (show 0 ≤ now - b.last t by omega)
      omega
    · rename_i prior hpr
      have e : b.last t = prior := by simp [Bw.last, hpr]
      rw [e] at hp ⊢
      rw [longLimit_eq b hl] at h
      split at h
      · cases h
      · rename_i x hx
        obtain ⟨rfl, -, -⟩ := inLong_some hx
        split at h
        · cases h
        · rename_i tot' ht'
          obtain ⟨rfl, -, -⟩ := inLong_some ht'
          have hx0 : 0 ≤ (now - prior) * b.bwlimit.toNat := Int.mul_nonneg (by omega) hln
          have hb := tdiv_nonneg_bounds _ hx0
          rw [Int.mul_comm (b.bwlimit.toNat : Int)]
          generalize (now - prior) * (b.bwlimit.toNat : Int) = x at *
          cases h
          split <;> omega

theorem sleepTime_spec {b : Bw} {d sl : Int} (hl0 : b.bwlimit ≠ 0) (hd : 0 ≤ d)
    (h : b.sleepTime d = some sl) :
    b.bwlimit.toNat * sl ≤ 976 * d ∧ 976 * d < b.bwlimit.toNat * (sl + 1) := by
  unfold Bw.sleepTime at h
  split at h
  · cases h
  · rename_i x hx
    obtain ⟨rfl, h1, h2⟩ := inLong_some hx
    obtain ⟨rfl, -, -⟩ := inLong_some h
    have e : (d * 976) % 2 ^ 64 = d * 976 := Int.emod_eq_of_lt (by omega) (by omega)
    rw [e]
    have hpos : 0 < b.bwlimit.toNat := by
      rcases Nat.eq_zero_or_pos b.bwlimit.toNat with h | h
      · exact absurd (UInt64.toNat_inj.1 (by simpa using h)) hl0
      · exact h
    obtain ⟨m, hm⟩ : ∃ m : Nat, (m : Int) = d * 976 := ⟨(d * 976).toNat, by omega⟩
    have hm' : (d * 976).toNat = m := by omega
    rw [hm']
    have h3 := Nat.mul_div_le m b.bwlimit.toNat
    have h4 := Nat.lt_mul_div_succ m hpos
    have h3' : (b.bwlimit.toNat : Int) * ((m / b.bwlimit.toNat : Nat) : Int) ≤ m := by exact_mod_cast h3
    have h4' : (m : Int) < (b.bwlimit.toNat : Int) * (((m / b.bwlimit.toNat : Nat) : Int) + 1) := by
      exact_mod_cast h4
    constructor <;> omega

theorem call_limit {b b' : Bw} {bytes : Nat} {now wake : Int} {s : BwSlept}
    (h : b.call bytes now wake = some (b', s)) : b'.bwlimit = b.bwlimit := by
  unfold Bw.call at h
  split at h
  · cases h; rfl
  · repeat (split at h; · cases h)
    split at h
    · cases h; rfl
    · split at h
      · cases h
      · cases h; rfl

/-- One call. -/
theorem call_spec {b b' : Bw} {bytes : Nat} {now wake : Int} {s : BwSlept} (t : Int)
    (hl : b.bwlimit.toNat < 2 ^ 63) (h0 : 0 ≤ b.total ∨ b.prior ≠ none) (hp : b.last t ≤ now)
    (hw : now ≤ wake) (h : b.call bytes now wake = some (b', s)) (hl0 : b.bwlimit ≠ 0) :
    (0 ≤ b'.total ∨ b'.prior ≠ none) ∧ b.last t ≤ b'.last t ∧ b'.last t ≤ wake ∧
    976 * (b.total + bytes) ≤ b.bwlimit.toNat * (b'.last t - b.last t) + 976 * b'.total +
      bwSleeps [s] * (b.bwlimit.toNat + 975) ∧
    (BwFull [s] → 976 * b.total ≤ 100000 * b.bwlimit.toNat →
      976 * b'.total ≤ 100000 * b.bwlimit.toNat) ∧
    (BwFull [s] → 100000 * (bwSleeps [s] : Int) ≤ b'.last t - b.last t) ∧
    b.bwlimit.toNat * bwSlept [s] + 976 * max b'.total 0 ≤ 976 * (max b.total 0 + bytes) := by
  have hln : (0 : Int) ≤ b.bwlimit.toNat := Int.natCast_nonneg _
  unfold Bw.call at h
  split at h
  · rename_i hz
    cases h
    have hz' : bytes = 0 := hz.resolve_left hl0
    subst hz'
    simp only [bwSleeps, bwSlept, List.map_cons, List.map_nil, List.sum_cons, List.sum_nil]
    refine ⟨h0, Int.le_refl _, by omega, by simp, fun _ hi => hi, by simp, by simp⟩
  · split at h
    · cases h
    · rename_i d hd
      obtain ⟨hd0, hd1, hd2⟩ := debt_spec t hl h0 hp hd
      split at h
      · cases h
      · rename_i sl hsl
        obtain ⟨hs1, hs2⟩ := sleepTime_spec hl0 hd0 hsl
        split at h
        · rename_i hlt
          cases h
          simp only [bwSleeps, bwSlept, Bw.last, List.map_cons, List.map_nil, List.sum_cons,
            List.sum_nil, Option.getD_some] at hd1 ⊢
          refine ⟨Or.inl hd0, hp, hw, ?_, fun _ _ => ?_, fun _ => ?_, ?_⟩
          · simpa using hd1
          · have : (b.bwlimit.toNat : Int) * (sl + 1) ≤ b.bwlimit.toNat * 100000 :=
              Int.mul_le_mul_of_nonneg_left (by omega) hln
            omega
          · simp only [Bw.last] at hp; simp; omega
          · omega
        · rename_i hge
          split at h
          · cases h
          · rename_i x hx
            obtain ⟨rfl, -, -⟩ := inLong_some hx
            cases h
            rw [longLimit_eq b hl]
            simp only [bwSleeps, bwSlept, Bw.last, List.map_cons, List.map_nil, List.sum_cons,
              List.sum_nil, Option.getD_some, Option.isSome_some, if_true] at hd1 hp ⊢
            have hmul : (b.bwlimit.toNat : Int) * (sl + 1) = b.bwlimit.toNat * sl + b.bwlimit.toNat := by
              rw [Int.mul_add, Int.mul_one]
            have hsplit : (b.bwlimit.toNat : Int) * (wake - b.prior.getD t) =
                b.bwlimit.toNat * (now - b.prior.getD t) + b.bwlimit.toNat * (wake - now) := by
              rw [← Int.mul_add]; congr 1; omega
            have hx : (sl - (wake - now)) * (b.bwlimit.toNat : Int) =
                b.bwlimit.toNat * sl - b.bwlimit.toNat * (wake - now) := by
              rw [Int.sub_mul, Int.mul_comm, Int.mul_comm (wake - now)]
            rw [hx]
            have hel : (0 : Int) ≤ b.bwlimit.toNat * (wake - now) := Int.mul_nonneg hln (by omega)
            have hmin1 : (b.bwlimit.toNat : Int) * min sl (wake - now) ≤ b.bwlimit.toNat * sl :=
              Int.mul_le_mul_of_nonneg_left (by omega) hln
            have hmin2 : (b.bwlimit.toNat : Int) * min sl (wake - now) ≤ b.bwlimit.toNat * (wake - now) :=
              Int.mul_le_mul_of_nonneg_left (by omega) hln
            refine ⟨Or.inr nofun, by omega, Int.le_refl _, ?_, fun hf _ => ?_, fun hf => ?_, ?_⟩
            · rw [hsplit]
              generalize (b.bwlimit.toNat : Int) * sl = A at *
              generalize (b.bwlimit.toNat : Int) * (wake - now) = B at *
              generalize (b.bwlimit.toNat : Int) * (now - b.prior.getD t) = C at *
              rcases Int.le_total 0 (A - B) with hc | hc
              · have := tdiv_nonneg_bounds _ hc
                push_cast; omega
              · have := tdiv_neg_bounds _ hc
                push_cast; omega
            · have hle : sl ≤ wake - now := hf _ List.mem_cons_self _ rfl
              have : (b.bwlimit.toNat : Int) * sl ≤ b.bwlimit.toNat * (wake - now) :=
                Int.mul_le_mul_of_nonneg_left hle hln
              have := tdiv_neg_bounds (b.bwlimit.toNat * sl - b.bwlimit.toNat * (wake - now)) (by omega)
              omega
            · have hle : sl ≤ wake - now := hf _ List.mem_cons_self _ rfl
              simp; omega
            · simp only [Int.add_zero]
              generalize (b.bwlimit.toNat : Int) * min sl (wake - now) = D at *
              generalize (b.bwlimit.toNat : Int) * sl = A at *
              generalize (b.bwlimit.toNat : Int) * (wake - now) = B at *
              rcases Int.le_total 0 (A - B) with hc | hc
              · have := tdiv_nonneg_bounds _ hc
                omega
              · have := tdiv_neg_bounds _ hc
                omega

theorem bwSleeps_cons (s : BwSlept) (ss : List BwSlept) :
    bwSleeps (s :: ss) = bwSleeps [s] + bwSleeps ss := by simp [bwSleeps]

theorem bwSlept_cons (s : BwSlept) (ss : List BwSlept) :
    bwSlept (s :: ss) = bwSlept [s] + bwSlept ss := by simp [bwSlept]

/-- Any number of calls. -/
theorem calls_spec {b b' : Bw} {l : List BwCall} {ss : List BwSlept} (t t' : Int)
    (hl : b.bwlimit.toNat < 2 ^ 63) (h0 : 0 ≤ b.total ∨ b.prior ≠ none) (hp : b.last t ≤ t')
    (ht : BwTimely t' l) (h : b.calls l = some (b', ss)) (hl0 : b.bwlimit ≠ 0) :
    976 * (b.total + bwBytes l) ≤ b.bwlimit.toNat * (b'.last t - b.last t) + 976 * b'.total +
      bwSleeps ss * (b.bwlimit.toNat + 975) ∧
    (BwFull ss → 976 * b.total ≤ 100000 * b.bwlimit.toNat →
      976 * b'.total ≤ 100000 * b.bwlimit.toNat) ∧
    (BwFull ss → 100000 * (bwSleeps ss : Int) ≤ b'.last t - b.last t) ∧
    b.bwlimit.toNat * bwSlept ss + 976 * max b'.total 0 ≤ 976 * (max b.total 0 + bwBytes l) := by
  induction l generalizing b t' ss with
  | nil =>
    cases h
    simp only [bwBytes, bwSleeps, bwSlept, List.map_nil, List.sum_nil]
    refine ⟨by simp, fun _ h => h, by simp, by simp⟩
  | cons c l ih =>
    unfold Bw.calls at h
    split at h
    · cases h
    · rename_i b1 s hc
      split at h
      · cases h
      · rename_i b2 ss' hcs
        cases h
        obtain ⟨ht1, ht2, ht3⟩ := ht
        have hlim := call_limit hc
        obtain ⟨g0, g1, g2, g3, g4, g5, g6⟩ := call_spec t hl h0 (by omega) ht2 hc hl0
        obtain ⟨k3, k4, k5, k6⟩ := ih c.wake (by rw [hlim]; exact hl) g0 g2 ht3 hcs
          (by rw [hlim]; exact hl0)
        rw [hlim] at k3 k4 k6
        have full1 : BwFull (s :: ss') → BwFull [s] := fun hf x hx => hf x (by
          rw [List.mem_singleton.mp hx]; exact List.mem_cons_self)
        have full2 : BwFull (s :: ss') → BwFull ss' := fun hf x hx => hf x (List.mem_cons_of_mem _ hx)
        rw [bwSleeps_cons, bwSlept_cons]
        have hb : bwBytes (c :: l) = c.bytes + bwBytes l := by simp [bwBytes]
        rw [hb]
        refine ⟨?_, fun hf hi => k4 (full2 hf) (g4 (full1 hf) hi), fun hf => ?_, ?_⟩
        · push_cast at *; linarith
        · have := g5 (full1 hf); have := k5 (full2 hf); push_cast; omega
        · push_cast at *; linarith

end Flare
