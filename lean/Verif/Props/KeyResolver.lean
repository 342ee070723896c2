import Verif.Lemmas.KeyResolver
import Mathlib.Data.List.Count
import Mathlib.Data.List.Induction
import Mathlib.Algebra.Order.Group.Abs
import Mathlib.Algebra.Order.Group.Int
import Mathlib.Algebra.BigOperators.Group.List.Basic
import Mathlib.Tactic.NormNum

/-!
Property theorems about key hashing and partition choice: C17, C18, C19 and C51 (how much moves).
-/
namespace Flare

/-! ### C17 -/

theorem negated (r : Int32) :
    0 ≤ (if r < 0 then r * (-1) else r) ∨ (if r < 0 then r * (-1) else r) = Int32.minValue := by
  split
  · next hr =>
    rw [Int32.lt_iff_toInt_lt] at hr
    by_cases hm : r = Int32.minValue
    · right; rw [hm]; decide
    · left
      have hne : r.toInt ≠ -2147483648 := by
        intro h; apply hm; apply Int32.toInt_inj.1; rw [h]; decide
      rw [Int32.le_iff_toInt_le, Int32.toInt_mul]
      have h1 := Int32.le_toInt r
      have h2 := Int32.toInt_lt r
      have h0 : (0 : Int32).toInt = 0 := by decide
      have h3 : (-1 : Int32).toInt = -1 := by decide
      rw [h0] at hr ⊢
      rw [h3, Int.bmod_eq_of_le] <;> omega
  · next hr => left; exact Int32.not_lt.1 hr

/-- For every algorithm and key (and whatever the external functions return) the hash value handed to
the resolver is non-negative, with one exception: the raw value -2^31.  Missing for the full claim: the
exception, see `C17_negative`. -/
theorem C17_nonneg_partial (ext : HashAlgorithm → Bytes → UInt32) (h : HashAlgorithm) (key : Bytes) :
    0 ≤ keyHash ext h key ∨ keyHash ext h key = Int32.minValue :=
  negated _

/-- The exception is reached by an ordinary key: with the bitshift algorithm the key "in9hje0" has a
negative hash value. -/
theorem C17_negative (ext : HashAlgorithm → Bytes → UInt32) :
    keyHash ext .bitshift [105, 110, 57, 104, 106, 101, 48] = -2147483648 := by
  have h : hashBitshift 19790217 [105, 110, 57, 104, 106, 101, 48] = -2147483648 := by decide +kernel
  simp only [keyHash, h]
  decide

theorem charToInt_bounds (c : UInt8) : -128 ≤ (charToInt c).toInt ∧ (charToInt c).toInt ≤ 127 := by
  simp only [charToInt, Int8.toInt_toInt32]
  have h1 := Int8.le_toInt c.toInt8
  have h2 := Int8.toInt_lt c.toInt8
  omega

/-- The integer sum of the (signed) characters up to the first NUL. -/
def charSum : Bytes → Int
  | [] => 0
  | c :: cs => if c = 0 then 0 else (charToInt c).toInt + charSum cs

theorem hashSimple_sum (key : Bytes) : ∀ r : Int32,
    |r.toInt| + 128 * key.length < 2147483648 → (hashSimple r key).toInt = r.toInt + charSum key := by
  induction key with
  | nil => intro r _; simp [hashSimple, charSum]
  | cons c cs ih =>
    intro r hr
    simp only [hashSimple, charSum]
    have hc := charToInt_bounds c
    simp only [List.length_cons, Nat.cast_add, Nat.cast_one] at hr
    split
    · simp
    · have hadd : (r + charToInt c).toInt = r.toInt + (charToInt c).toInt := by
        rw [Int32.toInt_add]
        apply Int.bmod_eq_of_le
        · have := neg_abs_le r.toInt; omega
        · have := le_abs_self r.toInt; omega
      rw [ih]
      · rw [hadd]; omega
      · rw [hadd]
        have := abs_add_le r.toInt (charToInt c).toInt
        have h2 : |(charToInt c).toInt| ≤ 128 := abs_le.2 ⟨by omega, by omega⟩
        omega

theorem charSum_bound (key : Bytes) : |charSum key| ≤ 128 * key.length := by
  induction key with
  | nil => simp [charSum]
  | cons c cs ih =>
    simp only [charSum, List.length_cons, Nat.cast_add, Nat.cast_one]
    split
    · simp; omega
    · have hc := charToInt_bounds c
      have := abs_add_le (charToInt c).toInt (charSum cs)
      have h2 : |(charToInt c).toInt| ≤ 128 := abs_le.2 ⟨by omega, by omega⟩
      omega

/-- With the default algorithm and keys below 16 MiB there is no overflow and no exception: the hash is
the absolute value of the sum of the key's characters. -/
theorem C17_simple (ext : HashAlgorithm → Bytes → UInt32) (key : Bytes) (h : key.length < 2 ^ 24) :
    (keyHash ext .simple key).toInt = |charSum key| ∧ 0 ≤ keyHash ext .simple key := by
  have hs : (hashSimple 0 key).toInt = charSum key := by
    rw [hashSimple_sum]
    · simp
    · simp; omega
  have hb := charSum_bound key
  have h0 : (0 : Int32).toInt = 0 := by decide
  have key1 : (keyHash ext .simple key).toInt = |charSum key| := by
    simp only [keyHash]
    split
    · next hr =>
      rw [Int32.lt_iff_toInt_lt, hs, h0] at hr
      have h3 : (-1 : Int32).toInt = -1 := by decide
      rw [Int32.toInt_mul, hs, h3, abs_of_neg hr]
      rw [abs_of_neg hr] at hb
      rw [Int.bmod_eq_of_le] <;> omega
    · next hr =>
      have hr := Int32.not_lt.1 hr
      rw [Int32.le_iff_toInt_le, hs, h0] at hr
      rw [hs, abs_of_nonneg hr]
  exact ⟨key1, by rw [Int32.le_iff_toInt_le, key1, h0]; exact abs_nonneg _⟩

example : keyHash (fun _ _ => 0) .simple [107, 101, 121] = 329 ∧
    keyHash (fun _ _ => 0) .simple [195, 164] = 153 ∧
    keyHash (fun _ _ => 0xffffffff) .crc32 [107] = 1 := by decide

theorem hashSimple_nul (r : Int32) : ∀ (k t : Bytes), hashSimple r (k ++ 0 :: t) = hashSimple r k
  | [], t => by simp [hashSimple]
  | c :: k, t => by
    simp only [List.cons_append, hashSimple]
    split
    · rfl
    · exact hashSimple_nul _ k t

theorem hashBitshift_nul (r : Int32) : ∀ (k t : Bytes), hashBitshift r (k ++ 0 :: t) = hashBitshift r k
  | [], t => by simp [hashBitshift]
  | c :: k, t => by
    simp only [List.cons_append, hashBitshift]
    split
    · rfl
    · exact hashBitshift_nul _ k t

/-- A key is hashed up to its first NUL byte, with every algorithm: what is behind it, which a binary client can send, does not
move it to another partition. -/
theorem C17_nul (ext : HashAlgorithm → Bytes → UInt32) (h : HashAlgorithm) (k t : Bytes) :
    keyHash ext h (k ++ 0 :: t) = keyHash ext h k := by
  have e : (k ++ 0 :: t).takeWhile (· ≠ 0) = k.takeWhile (· ≠ 0) := by
    induction k with
    | nil => simp
    | cons c k ih => simp only [List.cons_append, List.takeWhile_cons, ih]
  cases h <;> simp only [keyHash, hashSimple_nul, hashBitshift_nul, e]

example :
    keyHash (fun _ _ => 7) .bitshift [97, 0, 98, 99] = 732238126 ∧ keyHash (fun _ _ => 7) .bitshift [97] = 732238126 ∧
    keyHash (fun _ _ => 7) .simple [97, 0, 98, 99] = 97 ∧ keyHash (fun _ _ => 7) .simple [97, 98, 99] = 294 := by
  decide +kernel

/-! ### C18 -/

/-- For every configuration with a hint of at least 1, every partition count in the table and every
non-negative hash value the resolver answers an existing partition. -/
theorem C18_in_range {kr : Resolver} (hh : 1 ≤ kr.hint) (hv : 1 ≤ kr.virtual_) {n : Nat} (h1 : 1 ≤ n)
    (hn : n < kr.size) {h : Int} (h0 : 0 ≤ h) : ∃ p, resolve kr h n = some p ∧ p < n := by
  obtain ⟨r, hr, hl, hm⟩ := row_spec kr.hint kr.virtual_ hh n h1
  have hmod : 0 ≤ h.tmod kr.virtual_ := Int.tmod_nonneg _ h0
  have hlt : (h.tmod kr.virtual_).toNat < r.length := by
    have := Int.tmod_lt_of_pos h (show (0 : Int) < kr.virtual_ by omega)
    omega
  refine ⟨r[(h.tmod kr.virtual_).toNat], ?_, hm _ (List.getElem_mem _)⟩
  simp [resolve, hn, hmod, hr, show kr.virtual_ ≠ 0 by omega, hlt]

/-- The exceptional hash value -2^31 is harmless when the virtual size divides 2^31 (the default
4096 does). -/
theorem C18_min_value {kr : Resolver} (hh : 1 ≤ kr.hint) (hv : kr.virtual_ ∣ 2 ^ 31) {n : Nat}
    (h1 : 1 ≤ n) (hn : n < kr.size) : ∃ p, resolve kr (-2147483648) n = some p ∧ p < n := by
  have hv1 : 1 ≤ kr.virtual_ := by
    rcases Nat.eq_zero_or_pos kr.virtual_ with h | h
    · rw [h] at hv; norm_num at hv
    · exact h
  have hz : (-2147483648 : Int).tmod kr.virtual_ = 0 := by
    apply Int.tmod_eq_zero_of_dvd
    have : ((kr.virtual_ : Nat) : Int) ∣ ((2 ^ 31 : Nat) : Int) := Int.natCast_dvd_natCast.2 hv
    norm_num at this
    exact (Int.dvd_neg).2 this
  obtain ⟨p, hp, hlt⟩ := C18_in_range hh hv1 h1 hn (Int.le_refl 0)
  refine ⟨p, ?_, hlt⟩
  have : resolve kr (-2147483648) n = resolve kr 0 n := by simp only [resolve, hz, Int.zero_tmod]
  rw [this, hp]

/-- With another virtual size it reads outside the table, and so do a partition count beyond the table
and a hint of 0: all three are undefined behaviour. -/
theorem C18_undefined :
    resolve ⟨1024, 1, 1000⟩ (-2147483648) 3 = none ∧ resolve ⟨4, 1, 16⟩ 5 4 = none ∧
      resolve ⟨4, 0, 16⟩ 5 1 = none := by
  refine ⟨?_, by decide, by decide⟩
  simp only [resolve]
  rw [if_neg]
  decide

example : resolve ⟨8, 2, 16⟩ 1234567 5 = some 3 := by decide

/-! ### C19 -/

/-- Growing from n to n+1 partitions at or beyond the hint: every hash value keeps its partition or
moves to the new partition n. -/
theorem C19_minimal_movement {kr : Resolver} {n : Nat} (hh : kr.hint ≤ n) (hn : n + 1 < kr.size)
    {h : Int} {p q : Nat} (hp : resolve kr h n = some p) (hq : resolve kr h (n + 1) = some q) :
    q = p ∨ q = n := by
  simp only [resolve] at hp hq
  split at hp
  · rw [if_pos (by simp_all)] at hq
    cases hr : row kr.hint kr.virtual_ n with
    | none => simp [hr] at hp
    | some r =>
      simp only [hr, Option.bind_some] at hp
      have hr' : row kr.hint kr.virtual_ (n + 1) = some (nextRow (n + 1) (fun _ => 0) r) := by
        simp only [row, hr]; rw [if_neg (by omega)]; rfl
      simp only [hr', Option.bind_some] at hq
      rcases nextRow_get (n + 1) r (fun _ => 0) _ p hp with h1 | h1 <;>
      · rw [h1] at hq; simp at hq; omega
  · cases hp

example : resolve ⟨8, 1, 16⟩ 3 3 = some 2 ∧ resolve ⟨8, 1, 16⟩ 3 4 = some 2 ∧
    resolve ⟨8, 1, 16⟩ 6 3 = some 1 ∧ resolve ⟨8, 1, 16⟩ 6 4 = some 3 := by decide

/-! ### C51 -/

/-- The number of virtual slots of partition `p` when there are `n` partitions. -/
def slots (kr : Resolver) (n p : Nat) : Nat :=
  ((List.range kr.virtual_).filter fun (j : Nat) => resolve kr (j : Int) n = some p).length

theorem slots_eq {kr : Resolver} {n : Nat} (hn : n < kr.size) {r : List Nat}
    (hr : row kr.hint kr.virtual_ n = some r) (hl : r.length = kr.virtual_) (p : Nat) :
    slots kr n p = r.count p := by
  have hres : ∀ j, j < kr.virtual_ → resolve kr (j : Int) n = r[j]? := by
    intro j hj
    have hm : (j : Int).tmod (kr.virtual_ : Int) = j := Int.tmod_eq_of_lt (by omega) (by omega)
    simp [resolve, hn, hm, hr, show kr.virtual_ ≠ 0 by omega]
  simp only [slots]
  have : (List.range kr.virtual_).filter (fun (j : Nat) => decide (resolve kr (j : Int) n = some p)) =
      (List.range r.length).filter (fun j => decide (r[j]? = some p)) := by
    rw [hl]
    apply List.filter_congr
    intro j hj
    rw [hres j (by simpa using hj)]
  rw [this]
  clear this hres hl hr hn
  induction r using List.reverseRecOn with
  | nil => simp
  | append_singleton l a ih =>
    rw [List.length_append, List.length_singleton, List.range_succ, List.filter_append, List.length_append,
      List.count_append, ← ih]
    congr 1
    · congr 1
      apply List.filter_congr
      intro j hj
      rw [List.getElem?_append_left (by simpa using hj)]
    · by_cases h : a = p <;> simp [h]

/-- Growing from n to n+1 partitions at or beyond the hint takes an (n+1)-th of the slots (rounded) from
every old partition. -/
theorem C51_even_movement {kr : Resolver} {n : Nat} (hh1 : 1 ≤ kr.hint) (hh : kr.hint ≤ n)
    (hn : n + 1 < kr.size) {p : Nat} (hp : p < n) :
    slots kr (n + 1) p = slots kr n p - (slots kr n p + 1) / (n + 1) := by
  obtain ⟨r, hr, hl, hm⟩ := row_spec kr.hint kr.virtual_ hh1 n (by omega)
  have hr' : row kr.hint kr.virtual_ (n + 1) = some (nextRow (n + 1) (fun _ => 0) r) := by
    simp only [row, hr]; rw [if_neg (by omega)]; rfl
  rw [slots_eq (by omega) hr hl, slots_eq hn hr' (by rw [nextRow_length, hl])]
  have := nextRow_moved (n + 1) (by omega) p (by omega) r (by simpa using hm) (fun _ => 0)
  have h1 : (0 + 1) / (n + 1) = 0 := Nat.div_eq_of_lt (by omega)
  simp only [h1, Nat.zero_add] at this
  omega

/-- The slots of all partitions add up: none is lost. -/
theorem C51_total {kr : Resolver} {n : Nat} (hh1 : 1 ≤ kr.hint) (h1 : 1 ≤ n) (hn : n < kr.size) :
    ((List.range n).map (slots kr n)).sum = kr.virtual_ := by
  obtain ⟨r, hr, hl, hm⟩ := row_spec kr.hint kr.virtual_ hh1 n h1
  have : (List.range n).map (slots kr n) = (List.range n).map (fun p => r.count p) :=
    List.map_congr_left (fun p _ => slots_eq hn hr hl p)
  rw [this, ← hl]
  clear this hr hl
  induction r with
  | nil => simp
  | cons a r ih =>
    have ha := hm a (by simp)
    have ih := ih (fun x hx => hm x (by simp [hx]))
    simp only [List.count_cons, List.length_cons]
    rw [List.sum_map_add, ih]
    congr 1
    have : ∀ m, a < m → ((List.range m).map (fun i => if (a == i) = true then 1 else 0)).sum = 1 := by
      intro m
      induction m with
      | zero => intro h; omega
      | succ m ihm =>
        intro h
        rw [List.range_succ, List.map_append, List.sum_append]
        by_cases hm : a = m
        · subst hm
          have hz : ((List.range a).map (fun i => if (a == i) = true then 1 else 0)).sum = 0 := by
            apply List.sum_eq_zero
            intro x hx
            simp only [List.mem_map, List.mem_range] at hx
            obtain ⟨i, hi, rfl⟩ := hx
            rw [if_neg]; simp; omega
          rw [hz]; simp
        · rw [ihm (by omega)]; simp [hm]
    exact this n ha

example : (List.range 3).map (slots ⟨8, 1, 20⟩ 3) = [7, 7, 6] ∧
    (List.range 4).map (slots ⟨8, 1, 20⟩ 4) = [5, 5, 5, 5] := by decide

end Flare
