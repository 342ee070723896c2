import Verif.Model.Base64

namespace Flare

theorem all256 {P : UInt8 → Prop} (h : ∀ n : Fin 256, P (UInt8.ofNat n.val)) (c : UInt8) : P c := by
  have := h ⟨c.toNat, c.toNat_lt⟩
  simpa using this

theorem below {k : Nat} {P : UInt8 → Prop} (h : ∀ n : Fin k, P (UInt8.ofNat n.val)) (c : UInt8)
    (hc : c.toNat < k) : P c := by
  have := h ⟨c.toNat, hc⟩
  simpa using this

theorem b64_hi6 (b : UInt8) : (b &&& 0xfc) >>> 2 = UInt8.ofNat (b.toNat / 4) := by
  revert b; apply all256; decide +kernel
theorem b64_lo2 (b : UInt8) : b &&& 0x03 = UInt8.ofNat (b.toNat % 4) := by
  revert b; apply all256; decide +kernel
theorem b64_hi4 (b : UInt8) : (b &&& 0xf0) >>> 4 = UInt8.ofNat (b.toNat / 16) := by
  revert b; apply all256; decide +kernel
theorem b64_lo4 (b : UInt8) : b &&& 0x0f = UInt8.ofNat (b.toNat % 16) := by
  revert b; apply all256; decide +kernel
theorem b64_hi2 (b : UInt8) : (b &&& 0xc0) >>> 6 = UInt8.ofNat (b.toNat / 64) := by
  revert b; apply all256; decide +kernel
theorem b64_lo6 (b : UInt8) : b &&& 0x3f = UInt8.ofNat (b.toNat % 64) := by
  revert b; apply all256; decide +kernel
theorem b64_shl4 (x : UInt8) : x.toNat < 4 → x <<< 4 = UInt8.ofNat (x.toNat * 16) := by
  revert x; apply all256; decide +kernel
theorem b64_shl2 (x : UInt8) : x.toNat < 64 → x <<< 2 = UInt8.ofNat (x.toNat * 4) := by
  revert x; apply all256; decide +kernel
theorem b64_shl6 (x : UInt8) : x.toNat < 4 → x <<< 6 = UInt8.ofNat (x.toNat * 64) := by
  revert x; apply all256; decide +kernel
theorem b64_shl4' (x : UInt8) : x.toNat < 16 → x <<< 4 = UInt8.ofNat (x.toNat * 16) := by
  revert x; apply all256; decide +kernel
theorem b64_mid30 (x : UInt8) : x.toNat < 64 → (x &&& 0x30) >>> 4 = UInt8.ofNat (x.toNat / 16) := by
  revert x; apply all256; decide +kernel
theorem b64_mid3c (x : UInt8) : x.toNat < 64 → (x &&& 0x3c) >>> 2 = UInt8.ofNat (x.toNat / 4) := by
  revert x; apply all256; decide +kernel

/-- The four digits of a group are the base-64 digits of its 24-bit number. -/
theorem b64Text_digits (a b c : UInt8) :
    b64Text a b c =
      [UInt8.ofNat (a.toNat / 4), UInt8.ofNat (a.toNat % 4 * 16 + b.toNat / 16),
       UInt8.ofNat (b.toNat % 16 * 4 + c.toNat / 64), UInt8.ofNat (c.toNat % 64)] := by
  have ha := a.toNat_lt
  have hb := b.toNat_lt
  have hc := c.toNat_lt
  simp only [b64Text, b64_hi6, b64_lo2, b64_hi4, b64_lo4, b64_hi2, b64_lo6]
  have e1 : (UInt8.ofNat (a.toNat % 4)).toNat = a.toNat % 4 := by simp; omega
  have e2 : (UInt8.ofNat (b.toNat % 16)).toNat = b.toNat % 16 := by simp; omega
  rw [b64_shl4 _ (by rw [e1]; omega), b64_shl2 _ (by rw [e2]; omega), e1, e2, ← UInt8.ofNat_add,
    ← UInt8.ofNat_add]

theorem b64Binary_digits (x y z w : Nat) (hx : x < 64) (hy : y < 64) (hz : z < 64) (hw : w < 64) :
    b64Binary (UInt8.ofNat x) (UInt8.ofNat y) (UInt8.ofNat z) (UInt8.ofNat w) =
      [UInt8.ofNat (x * 4 + y / 16), UInt8.ofNat (y % 16 * 16 + z / 4), UInt8.ofNat (z % 4 * 64 + w)] := by
  have ex : (UInt8.ofNat x).toNat = x := by simp; omega
  have ey : (UInt8.ofNat y).toNat = y := by simp; omega
  have ez : (UInt8.ofNat z).toNat = z := by simp; omega
  have ew : (UInt8.ofNat w).toNat = w := by simp; omega
  have e1 : (UInt8.ofNat (y % 16)).toNat = y % 16 := by simp; omega
  have e2 : (UInt8.ofNat (z % 4)).toNat = z % 4 := by simp; omega
  simp only [b64Binary]
  rw [b64_shl2 _ (by rw [ex]; omega), b64_mid30 _ (by rw [ey]; omega), b64_mid3c _ (by rw [ez]; omega),
    b64_lo4, show (0x3 : UInt8) = 0x03 from rfl, b64_lo2, ex, ey, ez,
    b64_shl4' _ (by rw [e1]; omega), b64_shl6 _ (by rw [e2]; omega), e1, e2]
  simp only [← UInt8.ofNat_add]

/-- The character of a digit below 64. -/
def b64CharOf (n : Nat) : UInt8 := b64Alphabet.getD n 0

theorem b64Char_of (n : Nat) (h : n < 64) : b64Char (UInt8.ofNat n) = some (b64CharOf n) := by
  have : ∀ n : Fin 64, b64Char (UInt8.ofNat n.val) = some (b64CharOf n.val) := by decide +kernel
  exact this ⟨n, h⟩

theorem b64Map_charOf (n : Nat) (h : n < 64) : b64Map (b64CharOf n) = UInt8.ofNat n := by
  have : ∀ n : Fin 64, b64Map (b64CharOf n.val) = UInt8.ofNat n.val := by decide +kernel
  exact this ⟨n, h⟩

theorem b64CharOf_ne (n : Nat) (h : n < 64) : b64CharOf n ≠ 61 := by
  have : ∀ n : Fin 64, b64CharOf n.val ≠ 61 := by decide +kernel
  exact this ⟨n, h⟩

theorem b64CharOf_mem (n : Nat) (h : n < 64) : b64CharOf n ∈ b64Alphabet := by
  have : ∀ n : Fin 64, b64CharOf n.val ∈ b64Alphabet := by decide +kernel
  exact this ⟨n, h⟩

/-- The four characters of a group. -/
def b64Group (a b c : UInt8) : Bytes :=
  [b64CharOf (a.toNat / 4), b64CharOf (a.toNat % 4 * 16 + b.toNat / 16),
   b64CharOf (b.toNat % 16 * 4 + c.toNat / 64), b64CharOf (c.toNat % 64)]

theorem b64Text_mapM (a b c : UInt8) : (b64Text a b c).mapM b64Char = some (b64Group a b c) := by
  have ha := a.toNat_lt
  have hb := b.toNat_lt
  have hc := c.toNat_lt
  rw [b64Text_digits]
  simp only [List.mapM_cons, List.mapM_nil, b64Group]
  rw [b64Char_of _ (by omega), b64Char_of _ (by omega), b64Char_of _ (by omega), b64Char_of _ (by omega)]
  rfl

theorem b64Binary_group (a b c : UInt8) (ca cb cc cd : UInt8) (h : b64Group a b c = [ca, cb, cc, cd]) :
    b64Binary (b64Map ca) (b64Map cb) (b64Map cc) (b64Map cd) = [a, b, c] := by
  have ha := a.toNat_lt
  have hb := b.toNat_lt
  have hc := c.toNat_lt
  simp only [b64Group, List.cons.injEq, and_true] at h
  obtain ⟨rfl, rfl, rfl, rfl⟩ := h
  rw [b64Map_charOf _ (by omega), b64Map_charOf _ (by omega), b64Map_charOf _ (by omega),
    b64Map_charOf _ (by omega), b64Binary_digits _ _ _ _ (by omega) (by omega) (by omega) (by omega)]
  have e1 : a.toNat / 4 * 4 + (a.toNat % 4 * 16 + b.toNat / 16) / 16 = a.toNat := by omega
  have e2 : (a.toNat % 4 * 16 + b.toNat / 16) % 16 * 16 + (b.toNat % 16 * 4 + c.toNat / 64) / 4 = b.toNat := by
    omega
  have e3 : (b.toNat % 16 * 4 + c.toNat / 64) % 4 * 64 + c.toNat % 64 = c.toNat := by omega
  rw [e1, e2, e3]
  simp

/-- Encoding by groups of three. -/
def b64Groups : Bytes → Bytes
  | [] => []
  | [a] => (b64Group a 0 0).take 2 ++ [61, 61]
  | [a, b] => (b64Group a b 0).take 3 ++ [61]
  | a :: b :: c :: l => b64Group a b c ++ b64Groups l

theorem b64Encode_groups : ∀ l : Bytes, b64Encode l = some (b64Groups l)
  | [] => rfl
  | [a] => by
    have h := b64Text_mapM a 0 0
    have ha := a.toNat_lt
    simp only [b64Encode, b64EncodeLoop, List.nil_append, List.length_cons, List.length_nil, b64EncodeTail]
    rw [if_neg (by decide), if_neg (by simp)]
    rw [b64Text_digits] at *
    simp only [b64Groups, b64Group, List.mapM_cons, List.mapM_nil, List.getD_cons_zero, List.getD_cons_succ,
      List.getD_nil, List.take_succ_cons, List.take_zero]
    rw [b64Char_of _ (by omega), b64Char_of _ (by simp; omega)]
    rfl
  | [a, b] => by
    have ha := a.toNat_lt
    have hb := b.toNat_lt
    simp only [b64Encode, b64EncodeLoop, List.nil_append, List.length_cons, List.length_nil, b64EncodeTail,
      List.cons_append]
    rw [if_neg (by decide), if_neg (by decide), if_neg (by simp)]
    rw [b64Text_digits] at *
    simp only [b64Groups, b64Group, List.mapM_cons, List.mapM_nil, List.getD_cons_zero, List.getD_cons_succ,
      List.getD_nil, List.take_succ_cons, List.take_zero]
    rw [b64Char_of _ (by omega), b64Char_of _ (by omega), b64Char_of _ (by simp; omega)]
    rfl
  | a :: b :: c :: l => by
    have ih := b64Encode_groups l
    have h := b64Text_mapM a b c
    simp only [b64Encode] at ih
    simp only [b64Encode, b64EncodeLoop, List.nil_append, List.length_cons, List.length_nil,
      List.cons_append]
    rw [if_neg (by decide), if_neg (by decide), if_pos (by decide)]
    simp only [List.getD_cons_zero, List.getD_cons_succ]
    rw [h, ih]
    rfl

theorem b64DecodeLoop_four (w x y z : UInt8) (l : Bytes) (hw : w ≠ 61) (hx : x ≠ 61) (hy : y ≠ 61)
    (hz : z ≠ 61) :
    b64DecodeLoop [] (w :: x :: y :: z :: l) =
      b64Binary (b64Map w) (b64Map x) (b64Map y) (b64Map z) ++ b64DecodeLoop [] l := by
  simp [b64DecodeLoop, hw, hx, hy, hz]

theorem b64Decode_groups : ∀ l : Bytes, b64Decode (b64Groups l) = l
  | [] => rfl
  | [a] => by
    have ha := a.toNat_lt
    have h := b64Binary_group a 0 0 _ _ _ _ rfl
    have n1 := b64CharOf_ne (a.toNat / 4) (by omega)
    have n2 := b64CharOf_ne (a.toNat % 4 * 16 + (0 : UInt8).toNat / 16) (by simp; omega)
    simp only [b64Binary, List.cons.injEq] at h
    simp [b64Groups, b64Group, b64Decode, b64DecodeLoop, b64DecodeTail, b64Binary] at *
    simp [n1, n2, h]
  | [a, b] => by
    have ha := a.toNat_lt
    have hb := b.toNat_lt
    have h := b64Binary_group a b 0 _ _ _ _ rfl
    have n1 := b64CharOf_ne (a.toNat / 4) (by omega)
    have n2 := b64CharOf_ne (a.toNat % 4 * 16 + b.toNat / 16) (by omega)
    have n3 := b64CharOf_ne (b.toNat % 16 * 4 + (0 : UInt8).toNat / 64) (by simp; omega)
    simp only [b64Binary, List.cons.injEq] at h
    simp [b64Groups, b64Group, b64Decode, b64DecodeLoop, b64DecodeTail, b64Binary] at *
    simp [n1, n2, n3, h]
  | a :: b :: c :: l => by
    have ih := b64Decode_groups l
    have ha := a.toNat_lt
    have hb := b.toNat_lt
    have hc := c.toNat_lt
    have h := b64Binary_group a b c _ _ _ _ rfl
    simp only [b64Decode] at *
    simp only [b64Groups, b64Group, List.cons_append, List.nil_append]
    rw [b64DecodeLoop_four _ _ _ _ _ (b64CharOf_ne _ (by omega)) (b64CharOf_ne _ (by omega))
      (b64CharOf_ne _ (by omega)) (b64CharOf_ne _ (by omega)), h, ih]
    rfl

theorem b64Groups_length : ∀ l : Bytes, (b64Groups l).length = 4 * ((l.length + 2) / 3)
  | [] => rfl
  | [_] => by simp [b64Groups, b64Group]
  | [_, _] => by simp [b64Groups, b64Group]
  | a :: b :: c :: l => by
    have ih := b64Groups_length l
    simp only [b64Groups, b64Group, List.length_append, List.length_cons, List.length_nil, ih]
    omega

theorem b64Groups_mem : ∀ (l : Bytes) (x : UInt8), x ∈ b64Groups l → x ∈ b64Alphabet ∨ x = 61
  | [], x, h => by cases h
  | [a], x, h => by
    have ha := a.toNat_lt
    simp [b64Groups, b64Group] at h
    rcases h with rfl | rfl | h
    · exact Or.inl (b64CharOf_mem _ (by omega))
    · exact Or.inl (b64CharOf_mem _ (by omega))
    · exact Or.inr h
  | [a, b], x, h => by
    have ha := a.toNat_lt
    have hb := b.toNat_lt
    simp [b64Groups, b64Group] at h
    rcases h with rfl | rfl | rfl | h
    · exact Or.inl (b64CharOf_mem _ (by omega))
    · exact Or.inl (b64CharOf_mem _ (by omega))
    · exact Or.inl (b64CharOf_mem _ (by omega))
    · exact Or.inr h
  | a :: b :: c :: l, x, h => by
    have ha := a.toNat_lt
    have hb := b.toNat_lt
    have hc := c.toNat_lt
    simp only [b64Groups, b64Group, List.cons_append, List.nil_append, List.mem_cons] at h
    rcases h with rfl | rfl | rfl | rfl | h
    · exact Or.inl (b64CharOf_mem _ (by omega))
    · exact Or.inl (b64CharOf_mem _ (by omega))
    · exact Or.inl (b64CharOf_mem _ (by omega))
    · exact Or.inl (b64CharOf_mem _ (by omega))
    · exact b64Groups_mem l x h

/-- Number of padding characters. -/
def b64Pad (n : Nat) : Nat := (3 - n % 3) % 3

/-- Encoding without the padding. -/
def b64Digits : Bytes → Bytes
  | [] => []
  | [a] => (b64Group a 0 0).take 2
  | [a, b] => (b64Group a b 0).take 3
  | a :: b :: c :: l => b64Group a b c ++ b64Digits l

theorem b64Groups_digits : ∀ l : Bytes, b64Groups l = b64Digits l ++ List.replicate (b64Pad l.length) 61
  | [] => rfl
  | [_] => by simp [b64Groups, b64Digits, b64Pad]
  | [_, _] => by simp [b64Groups, b64Digits, b64Pad]
  | a :: b :: c :: l => by
    have ih := b64Groups_digits l
    have hp : b64Pad (a :: b :: c :: l).length = b64Pad l.length := by
      simp [b64Pad]; omega
    simp only [b64Groups, b64Digits, ih, hp, List.append_assoc]

theorem b64Digits_mem : ∀ (l : Bytes) (x : UInt8), x ∈ b64Digits l → x ∈ b64Alphabet
  | [], x, h => by cases h
  | [a], x, h => by
    have ha := a.toNat_lt
    simp [b64Digits, b64Group] at h
    rcases h with rfl | rfl
    · exact b64CharOf_mem _ (by omega)
    · exact b64CharOf_mem _ (by omega)
  | [a, b], x, h => by
    have ha := a.toNat_lt
    have hb := b.toNat_lt
    simp [b64Digits, b64Group] at h
    rcases h with rfl | rfl | rfl
    · exact b64CharOf_mem _ (by omega)
    · exact b64CharOf_mem _ (by omega)
    · exact b64CharOf_mem _ (by omega)
  | a :: b :: c :: l, x, h => by
    have ha := a.toNat_lt
    have hb := b.toNat_lt
    have hc := c.toNat_lt
    simp only [b64Digits, b64Group, List.cons_append, List.nil_append, List.mem_cons] at h
    rcases h with rfl | rfl | rfl | rfl | h
    · exact b64CharOf_mem _ (by omega)
    · exact b64CharOf_mem _ (by omega)
    · exact b64CharOf_mem _ (by omega)
    · exact b64CharOf_mem _ (by omega)
    · exact b64Digits_mem l x h

theorem b64_idx (n : Nat) (h : n < 64) : b64Alphabet.idxOf (b64CharOf n) = n := by
  have : ∀ n : Fin 64, b64Alphabet.idxOf (b64CharOf n.val) = n.val := by decide +kernel
  exact this ⟨n, h⟩

theorem b64Digits_number : ∀ (l : Bytes) (acc : Nat),
    (b64Digits l).foldl (fun n c => n * 64 + b64Alphabet.idxOf c) acc =
      l.foldl (fun n c => n * 256 + c.toNat) acc * 4 ^ b64Pad l.length
  | [], acc => by simp [b64Digits, b64Pad]
  | [a], acc => by
    have ha := a.toNat_lt
    have i1 := b64_idx (a.toNat / 4) (by omega)
    have i2 := b64_idx (a.toNat % 4 * 16) (by omega)
    simp [b64Digits, b64Group, b64Pad, i1, i2]
    omega
  | [a, b], acc => by
    have ha := a.toNat_lt
    have hb := b.toNat_lt
    have i1 := b64_idx (a.toNat / 4) (by omega)
    have i2 := b64_idx (a.toNat % 4 * 16 + b.toNat / 16) (by omega)
    have i3 := b64_idx (b.toNat % 16 * 4) (by omega)
    simp [b64Digits, b64Group, b64Pad, i1, i2, i3]
    omega
  | a :: b :: c :: l, acc => by
    have ha := a.toNat_lt
    have hb := b.toNat_lt
    have hc := c.toNat_lt
    have i1 := b64_idx (a.toNat / 4) (by omega)
    have i2 := b64_idx (a.toNat % 4 * 16 + b.toNat / 16) (by omega)
    have i3 := b64_idx (b.toNat % 16 * 4 + c.toNat / 64) (by omega)
    have i4 := b64_idx (c.toNat % 64) (by omega)
    have hp : b64Pad (a :: b :: c :: l).length = b64Pad l.length := by simp [b64Pad]; omega
    have he : (((acc * 64 + a.toNat / 4) * 64 + (a.toNat % 4 * 16 + b.toNat / 16)) * 64 +
        (b.toNat % 16 * 4 + c.toNat / 64)) * 64 + c.toNat % 64 =
        ((acc * 256 + a.toNat) * 256 + b.toNat) * 256 + c.toNat := by omega
    rw [hp]
    simp only [b64Digits, b64Group, List.cons_append, List.nil_append, List.foldl_cons, i1, i2, i3, i4, he]
    exact b64Digits_number l _

/-- Decoding writes at most three bytes per four characters. -/
theorem b64DecodeLoop_length (src : Bytes) : ∀ pend : Bytes, pend.length < 4 →
    4 * (b64DecodeLoop pend src).length ≤ 3 * (pend.length + src.length) := by
  have tail : ∀ pend : Bytes, pend.length < 4 → 4 * (b64DecodeTail pend).length ≤ 3 * pend.length := by
    intro pend h
    unfold b64DecodeTail
    split
    · simp
    · simp only [List.length_take, b64Binary, List.length_cons, List.length_nil]
      omega
  induction src with
  | nil => intro pend h; simpa [b64DecodeLoop] using tail pend h
  | cons c src ih =>
    intro pend h
    simp only [b64DecodeLoop]
    split
    · have := tail pend h
      simp only [List.length_cons]; omega
    · split
      · rename_i h4
        have := ih [] (by simp)
        simp only [List.length_append, List.length_cons, List.length_nil, b64Binary] at *
        omega
      · rename_i h4
        have := ih (pend ++ [c]) (by simp at *; omega)
        simp only [List.length_append, List.length_cons, List.length_nil] at *
        omega

end Flare
