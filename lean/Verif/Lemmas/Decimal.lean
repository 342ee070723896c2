import Verif.Model.Storage

namespace Flare

theorem decimalAux_fuel (f g n : Nat) (hf : n ≤ f) (hg : n ≤ g) :
    decimalAux f n = decimalAux g n := by
  induction f generalizing g n with
  | zero =>
    have : n = 0 := by omega
    subst this
    cases g <;> simp [decimalAux]
  | succ f ih =>
    cases g with
    | zero =>
      have : n = 0 := by omega
      subst this
      simp [decimalAux]
    | succ g =>
      simp only [decimalAux]
      split
      · rfl
      · rw [ih g (n / 10) (by omega) (by omega)]

theorem decimal_eq (n : Nat) : decimal n =
    if n < 10 then [UInt8.ofNat (48 + n)]
    else decimal (n / 10) ++ [UInt8.ofNat (48 + n % 10)] := by
  cases n with
  | zero => rfl
  | succ n =>
    rw [decimal, decimalAux]
    split
    · rfl
    · rw [decimal, decimalAux_fuel n ((n + 1) / 10) _ (by omega) (by omega)]

theorem decimal_induct {P : Nat → Prop} (h1 : ∀ n, n < 10 → P n)
    (h2 : ∀ n, ¬ n < 10 → P (n / 10) → P n) (n : Nat) : P n := by
  induction n using Nat.strongRecOn with
  | _ n ih =>
    by_cases h : n < 10
    · exact h1 n h
    · exact h2 n h (ih _ (by omega))

theorem isDigit_digit {d : Nat} (h : d < 10) : isDigit (UInt8.ofNat (48 + d)) = true := by
  have h1 : (48 + d) % 256 = 48 + d := by omega
  simp only [isDigit, Bool.and_eq_true, decide_eq_true_eq, UInt8.le_iff_toNat_le,
    UInt8.toNat_ofNat']
  constructor
  · show 48 ≤ (48 + d) % 256; omega
  · show (48 + d) % 256 ≤ 57; omega

theorem decimal_digits (n : Nat) : ∀ c ∈ decimal n, isDigit c = true := by
  induction n using decimal_induct with
  | h1 n h => rw [decimal_eq, if_pos h]; intro c hc; rw [List.mem_singleton] at hc; subst hc; exact isDigit_digit h
  | h2 n h ih =>
    rw [decimal_eq, if_neg h]
    intro c hc
    simp only [List.mem_append, List.mem_cons, List.not_mem_nil, or_false] at hc
    rcases hc with hc | rfl
    · exact ih c hc
    · exact isDigit_digit (by omega)

theorem decimal_ne_nil (n : Nat) : decimal n ≠ [] := by
  rw [decimal_eq]; split <;> simp

theorem decValue_append (a : Bytes) (c : UInt8) :
    decValue (a ++ [c]) = 10 * decValue a + (c.toNat - 48) := by
  simp [decValue]

theorem digit_toNat {d : Nat} (h : d < 10) : (UInt8.ofNat (48 + d)).toNat - 48 = d := by
  simp only [UInt8.toNat_ofNat']; omega

theorem decValue_decimal (n : Nat) : decValue (decimal n) = n := by
  induction n using decimal_induct with
  | h1 n h => rw [decimal_eq, if_pos h]; simp only [decValue, List.foldl_cons, List.foldl_nil]; rw [digit_toNat h]; omega
  | h2 n h ih =>
    rw [decimal_eq, if_neg h, decValue_append, ih, digit_toNat (by omega)]; omega

theorem takeWhile_digits {d rest : Bytes} (hd : ∀ c ∈ d, isDigit c = true)
    (hr : ∀ c, rest.head? = some c → isDigit c = false) : (d ++ rest).takeWhile isDigit = d := by
  induction d with
  | nil =>
    cases rest with
    | nil => rfl
    | cons c rest => simp [hr c rfl]
  | cons x d ih =>
    simp only [List.cons_append, List.takeWhile_cons, hd x (by simp), if_true]
    rw [ih (fun c hc => hd c (by simp [hc]))]

/-- A number printed in decimal and followed by something that is not a digit is read back. -/
theorem leadingNumber_decimal {n : Nat} (h : n < 2 ^ 64) {rest : Bytes}
    (hr : ∀ c, rest.head? = some c → isDigit c = false) :
    leadingNumber (decimal n ++ rest) = UInt64.ofNat n := by
  have hne := decimal_ne_nil n
  simp only [leadingNumber, takeWhile_digits (decimal_digits n) hr, decValue_decimal]
  have : ¬ (2 ^ 64 ≤ n) := by omega
  cases hd : decimal n with
  | nil => exact absurd hd hne
  | cons a as => simp [this]

theorem incrValue_incr (n v : UInt64) :
    (incrValue n v true).toNat = min (n.toNat + v.toNat) (2 ^ 64 - 1) := by
  have h1 := n.toNat_lt
  have h2 := v.toNat_lt
  simp only [incrValue, Bool.true_and, if_true, Bool.not_true, Bool.false_and, Bool.false_eq_true, if_false,
    decide_eq_true_eq, UInt64.lt_iff_toNat_lt, UInt64.toNat_add]
  split
  · have : ((0 : UInt64) - 1).toNat = 2 ^ 64 - 1 := by decide
    rw [this]; omega
  · rw [UInt64.toNat_add]; omega

theorem incrValue_decr (n v : UInt64) :
    (incrValue n v false).toNat = n.toNat - v.toNat := by
  have h1 := n.toNat_lt
  have h2 := v.toNat_lt
  have hneg : (-v).toNat = (2 ^ 64 - v.toNat) % 2 ^ 64 := by
    rw [UInt64.toNat_neg]
  simp only [incrValue, Bool.false_and, Bool.not_false, Bool.true_and, Bool.false_eq_true, if_false,
    decide_eq_true_eq, gt_iff_lt, UInt64.lt_iff_toNat_lt, UInt64.toNat_add, hneg]
  split
  · have : (0 : UInt64).toNat = 0 := rfl
    rw [this]; omega
  · rw [UInt64.toNat_add, hneg]; omega

end Flare
