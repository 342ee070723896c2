import Verif.Lemmas.Scan
import Verif.Spec.Text

/-! Reading back what has been written, field by field. -/
set_option linter.unusedSimpArgs false
namespace Flare

/-- A rest of a line that starts behind a token. -/
def Ends (t : Bytes) : Prop := ∃ c r, t = c :: r ∧ (c = chSpace ∨ c = chNl)

theorem ends_space (r : Bytes) : Ends (chSpace :: r) := ⟨_, _, rfl, .inl rfl⟩
theorem ends_nl (r : Bytes) : Ends (chNl :: r) := ⟨_, _, rfl, .inr rfl⟩

theorem isDigit_iff {c : UInt8} : isDigit c = true ↔ 48 ≤ c.toNat ∧ c.toNat ≤ 57 := by
  simp only [isDigit, Bool.and_eq_true, decide_eq_true_eq, UInt8.le_iff_toNat_le]
  exact Iff.rfl

theorem digit_ne {c d : UInt8} (h : isDigit c = true) (hd : isDigit d = false) : c ≠ d := by
  rintro rfl
  rw [h] at hd
  exact absurd hd (by decide)

theorem digitChar_of_isDigit {c : UInt8} (h : isDigit c = true) : digitChar c = true := by
  simp only [digitChar, decide_eq_true_eq]
  exact ⟨digit_ne h (by decide), .inl h, digit_ne h (by decide)⟩

theorem decimal_length_lt {n k : Nat} (hk : 0 < k) (h : n < 10 ^ k) : (decimal n).length ≤ k := by
  induction k generalizing n with
  | zero => omega
  | succ k ih =>
    rw [decimal_eq]
    split
    · simp
    · have hk0 : 0 < k := by
        rcases Nat.eq_zero_or_pos k with rfl | h0
        · simp at h; omega
        · exact h0
      have : n / 10 < 10 ^ k := by
        rw [Nat.div_lt_iff_lt_mul (by omega)]
        rw [Nat.pow_succ] at h; exact h
      have := ih hk0 this
      simp; omega

theorem decimal_length_64 {n : Nat} (h : n < 2 ^ 64) : (decimal n).length ≤ 20 :=
  decimal_length_lt (by omega) (Nat.lt_of_lt_of_le h (by decide))

theorem isUnsigned_decimal (n : Nat) : isUnsignedString (decimal n) = true := by
  simp only [isUnsignedString, Bool.and_eq_true, List.all_eq_true]
  refine ⟨?_, decimal_digits n⟩
  have := decimal_ne_nil n
  cases h : decimal n with
  | nil => exact absurd h this
  | cons a l => rfl

theorem lexNumber_decimal (n : Nat) : lexNumber (decimal n) = some (false, n) := by
  have h := isUnsigned_decimal n
  have hv := decValue_decimal n
  have hd := decimal_digits n
  cases hc : decimal n with
  | nil => exact absurd hc (decimal_ne_nil n)
  | cons c l =>
    rw [hc] at h hv hd
    have h1 := hd c (by simp)
    simp only [lexNumber, if_neg (digit_ne h1 (show isDigit chMinus = false by decide)),
      if_neg (digit_ne h1 (show isDigit chPlus = false by decide)), h, if_true, hv]

theorem lexNumber_minus (n : Nat) : lexNumber (chMinus :: decimal n) = some (true, n) := by
  simp only [lexNumber, if_true, isUnsigned_decimal, decValue_decimal]

theorem lexUnsigned_decimal {bits n : Nat} (h : n < 2 ^ bits) :
    lexUnsigned bits (decimal n) = some n := by
  simp [lexUnsigned, lexNumber_decimal, h]

theorem lexTime_decimal {n : Nat} (h : n < 2 ^ 63) :
    lexTime (decimal n) = some (Int64.ofNat n) := by
  simp [lexTime, lexNumber_decimal, h]

theorem int64_natAbs {i : Int64} (h : 0 ≤ i.toInt) :
    Int64.ofNat i.toInt.natAbs = i ∧ i.toInt.natAbs < 2 ^ 63 := by
  have hl := i.toInt_lt
  have h2 : ((i.toInt.natAbs : Nat) : Int) = i.toInt := by omega
  constructor
  · rw [← Int64.ofInt_eq_ofNat, h2, Int64.ofInt_toInt]
  · omega

theorem lexTime_decimalInt (i : Int64) : lexTime (decimalInt i.toInt) = some i := by
  by_cases h : i.toInt < 0
  · have hl := i.le_toInt
    simp only [decimalInt, if_pos h, lexTime, lexNumber_minus, if_true]
    rw [if_pos (by omega)]
    congr 1
    have : -((i.toInt.natAbs : Nat) : Int) = i.toInt := by omega
    rw [this, Int64.ofInt_toInt]
  · have := int64_natAbs (i := i) (by omega)
    simp only [decimalInt, if_neg h]
    rw [lexTime_decimal this.2, this.1]

theorem decimalInt_chars (i : Int) : ∀ c ∈ decimalInt i, digitChar c = true := by
  intro c hc
  simp only [decimalInt] at hc
  split at hc
  · rcases List.mem_cons.1 hc with rfl | hc
    · decide
    · exact digitChar_of_isDigit (decimal_digits _ c hc)
  · exact digitChar_of_isDigit (decimal_digits _ c hc)

theorem decimalInt_ne_nil (i : Int) : decimalInt i ≠ [] := by
  simp only [decimalInt]; split
  · simp
  · exact decimal_ne_nil _

theorem decimalInt_length (i : Int64) : (decimalInt i.toInt).length ≤ 20 := by
  have h1 := i.toInt_lt
  have h2 := i.le_toInt
  have h3 : (decimal i.toInt.natAbs).length ≤ 19 := decimal_length_lt (by omega) (by
    have : (10 : Nat) ^ 19 = 10000000000000000000 := by decide
    rw [this]; omega)
  simp only [decimalInt]; split
  · simp; omega
  · omega

theorem scanDigit_field {w t q : Bytes} (hw : ∀ x ∈ w, digitChar x = true) (hn : w ≠ [])
    (ht : Ends t) (hl : w.length + 1 < q.length) :
    ∃ q', scanDigit (chSpace :: w ++ t) q = .ok (t, q') ∧ cstr q' = w ∧ q'.length = q.length := by
  obtain ⟨c, r, rfl, hc⟩ := ht
  have := scanDigit_tok (w := w) (c := c) (rest := r) (q := q) 1 hw
    (by rcases hc with rfl | rfl <;> decide) (by omega) (fun h => absurd h hn)
  simpa using this

/-- Nothing that `next_digit` takes. -/
theorem scanDigit_empty {t q : Bytes} {c : UInt8} {r : Bytes} (k : Nat)
    (ht : t = List.replicate k chSpace ++ c :: r) (hc : digitChar c = false) (hs : c ≠ chSpace)
    (hl : k < q.length) :
    ∃ q', scanDigit t q = .ok (c :: r, q') ∧ cstr q' = [] ∧ q'.length = q.length := by
  subst ht
  have := scanDigit_tok (w := []) (c := c) (rest := r) (q := q) k (by simp) hc (by simpa using hl)
    (fun _ => hs)
  simpa using this

theorem scanWord_field {w t q : Bytes} (hw : ∀ x ∈ w, wordChar x = true) (hn : w ≠ [])
    (ht : Ends t) (hl : w.length < q.length) :
    ∃ q', scanWord (chSpace :: w ++ t) q = .ok (t, q') ∧ cstr q' = w ∧ q'.length = q.length := by
  obtain ⟨c, r, rfl, hc⟩ := ht
  have := scanWord_tok (w := w) (c := c) (rest := r) (q := q) 1 hw
    (by rcases hc with rfl | rfl <;> decide) hl (fun h => absurd h hn)
  simpa using this

theorem scanWord_blank (p q : Bytes) : scanWord (chSpace :: p) q = scanWord p q := by
  have hb : blanks (chSpace :: p) = blanks p + 1 := by simp [blanks]
  simp only [scanWord, nextWord, hb, List.drop_succ_cons]
  cases h : wordCopy q.length (List.drop (blanks p) p) 0 q with
  | none => rfl
  | some r =>
    simp only [Option.map_some]
    rw [show blanks p + 1 + r.1 = (blanks p + r.1) + 1 by omega, List.drop_succ_cons]

theorem scanWord_nl (q : Bytes) (hq : 0 < q.length) :
    ∃ q', scanWord [chNl] q = .ok ([chNl], q') ∧ cstr q' = [] ∧ q'.length = q.length := by
  have := scanWord_tok (w := []) (c := chNl) (rest := []) (q := q) 0 (by simp) (by decide)
    (by simpa using hq) (fun _ => by decide)
  simpa using this

/-! ### The fields of an entry -/

theorem PlainKey.word {k : Bytes} {n : Nat} (h : PlainKey k n) : ∀ c ∈ k, wordChar c = true := by
  intro c hc
  simpa [wordChar] using h.2.1 c hc

theorem cstr_plain {k : Bytes} (h : ∀ c ∈ k, wordChar c = true) : cstr k = k := by
  have h1 : k.takeWhile (· ≠ 0) ++ [] = k ++ [] := by
    have := List.takeWhile_append_of_pos (p := fun c : UInt8 => decide (c ≠ 0)) (l₁ := k)
      (l₂ := []) (fun c hc => by
        have := h c hc
        simp only [wordChar, decide_eq_true_eq] at this
        simpa using this.1)
    simpa using this
  simpa [cstr] using h1

theorem parseKey_ok {k t q : Bytes} {e : Entry} (hk : PlainKey k q.length) (ht : Ends t) :
    ∃ q', parseKey (chSpace :: k ++ t, q, e) = .ok (t, q', { e with key := k }) ∧
      q'.length = q.length := by
  obtain ⟨q', h1, h2, h3⟩ := scanWord_field (t := t) hk.word hk.1 ht hk.2.2
  refine ⟨q', ?_, h3⟩
  simp only [parseKey, h1, h2, if_neg hk.1]

theorem parseFlag_ok {t : ParseType} {f : UInt32} {r q : Bytes} {e : Entry}
    (ht : t ≠ .delete ∧ t ≠ .touch) (hr : Ends r) (hq : 32 ≤ q.length) :
    ∃ q', parseFlag t (chSpace :: decimal f.toNat ++ r, q, e) =
      .ok (r, q', { e with flag := f }) ∧ q'.length = q.length := by
  have hlt := f.toNat_lt
  have hl : (decimal f.toNat).length ≤ 20 := decimal_length_64 (by omega)
  obtain ⟨q', h1, h2, h3⟩ := scanDigit_field (q := q) (t := r)
    (fun x hx => digitChar_of_isDigit (decimal_digits f.toNat x hx)) (decimal_ne_nil _) hr
    (by omega)
  refine ⟨q', ?_, h3⟩
  simp only [parseFlag, if_pos ht, h1, h2, if_neg (decimal_ne_nil _), isUnsigned_decimal,
    Bool.not_true, Bool.false_eq_true, if_false, lexUnsigned_decimal hlt, UInt32.ofNat_toNat]

theorem parseFlag_skip {t : ParseType} {c : Cursor} (ht : ¬ (t ≠ .delete ∧ t ≠ .touch)) :
    parseFlag t c = .ok c := by
  obtain ⟨p, q, e⟩ := c
  simp only [parseFlag, if_neg ht]

theorem parseExpire_ok {now : Int64} {t : ParseType} {x : Int64} {r q : Bytes} {e : Entry}
    (ht : t ≠ .get) (hx : 0 ≤ x.toInt) (hr : Ends r) (hq : 32 ≤ q.length) :
    ∃ q', parseExpire now t (chSpace :: decimalInt x.toInt ++ r, q, e) =
      .ok (r, q', { e with expire := realtime now x }) ∧ q'.length = q.length := by
  have hl := decimalInt_length x
  obtain ⟨q', h1, h2, h3⟩ := scanDigit_field (q := q) (t := r)
    (decimalInt_chars x.toInt) (decimalInt_ne_nil _) hr (by omega)
  refine ⟨q', ?_, h3⟩
  have hu : isUnsignedString (decimalInt x.toInt) = true := by
    simp only [decimalInt, if_neg (show ¬ x.toInt < 0 by omega), isUnsigned_decimal]
  simp only [parseExpire, if_pos ht, h1, h2, if_neg (decimalInt_ne_nil _), hu,
    Bool.not_true, Bool.false_eq_true, if_false, lexTime_decimalInt]

theorem parseExpire_skip {now : Int64} {c : Cursor} : parseExpire now .get c = .ok c := by
  obtain ⟨p, q, e⟩ := c
  simp only [parseExpire, if_neg (show ¬ (ParseType.get ≠ .get) by simp)]

theorem parseSize_ok {t : ParseType} {n : UInt64} {r q : Bytes} {e : Entry}
    (ht : t ≠ .delete ∧ t ≠ .touch) (hn : n.toNat ≤ maxDataSize) (hr : Ends r)
    (hq : 32 ≤ q.length) :
    ∃ q', parseSize t (chSpace :: decimal n.toNat ++ r, q, e) =
      .ok (r, q', { e with size := n }) ∧ q'.length = q.length := by
  have hlt := n.toNat_lt
  have hl : (decimal n.toNat).length ≤ 20 := decimal_length_64 (by omega)
  obtain ⟨q', h1, h2, h3⟩ := scanDigit_field (q := q) (t := r)
    (fun x hx => digitChar_of_isDigit (decimal_digits n.toNat x hx)) (decimal_ne_nil _) hr
    (by omega)
  refine ⟨q', ?_, h3⟩
  simp only [parseSize, if_pos ht, h1, h2, if_neg (decimal_ne_nil _), isUnsigned_decimal,
    Bool.not_true, Bool.false_eq_true, if_false, lexUnsigned_decimal hlt, UInt64.ofNat_toNat,
    if_neg (show ¬ n.toNat > maxDataSize by omega)]

theorem parseSize_skip {t : ParseType} {c : Cursor} (ht : ¬ (t ≠ .delete ∧ t ≠ .touch)) :
    parseSize t c = .ok c := by
  obtain ⟨p, q, e⟩ := c
  simp only [parseSize, if_neg ht]

theorem parseVersion_ok {t : ParseType} {n : UInt64} {r q : Bytes} {e : Entry}
    (hr : Ends r) (hq : 32 ≤ q.length) :
    ∃ q', parseVersion t (chSpace :: decimal n.toNat ++ r, q, e) =
      .ok (r, q', { e with version := n }) ∧ q'.length = q.length := by
  have hlt := n.toNat_lt
  have hl : (decimal n.toNat).length ≤ 20 := decimal_length_64 (by omega)
  obtain ⟨q', h1, h2, h3⟩ := scanDigit_field (q := q) (t := r)
    (fun x hx => digitChar_of_isDigit (decimal_digits n.toNat x hx)) (decimal_ne_nil _) hr
    (by omega)
  refine ⟨q', ?_, h3⟩
  simp only [parseVersion, h1, h2, ne_eq, decimal_ne_nil, not_false_eq_true, if_true,
    isUnsigned_decimal, Bool.not_true, Bool.false_eq_true, if_false, lexUnsigned_decimal hlt,
    UInt64.ofNat_toNat]

/-- No version in the line: the blanks in front of the options are consumed. -/
theorem parseVersion_none {t : ParseType} {r q : Bytes} {e : Entry} {c : UInt8} (k : Nat)
    (ht : t ≠ .cas) (hc : digitChar c = false) (hs : c ≠ chSpace) (hk : k < q.length) :
    ∃ q', parseVersion t (List.replicate k chSpace ++ c :: r, q, e) =
      .ok (c :: r, q', e) ∧ q'.length = q.length := by
  obtain ⟨q', h1, h2, h3⟩ := scanDigit_empty (q := q) (c := c) (r := r) k rfl hc hs hk
  refine ⟨q', ?_, h3⟩
  simp only [parseVersion, h1, h2, ne_eq, not_true_eq_false, if_false, if_neg ht]

theorem parseExpireGet_ok {now x : Int64} {r q : Bytes} {e : Entry}
    (hr : Ends r) (hq : 32 ≤ q.length) :
    ∃ q', parseExpireGet now .get (chSpace :: decimalInt x.toInt ++ r, q, e) =
      .ok (r, q', { e with expire := realtime now x }) ∧ q'.length = q.length := by
  have hl := decimalInt_length x
  obtain ⟨q', h1, h2, h3⟩ := scanDigit_field (q := q) (t := r)
    (decimalInt_chars x.toInt) (decimalInt_ne_nil _) hr (by omega)
  refine ⟨q', ?_, h3⟩
  simp only [parseExpireGet, if_true, h1, h2, ne_eq, decimalInt_ne_nil, not_false_eq_true,
    lexTime_decimalInt]

theorem parseExpireGet_none {now : Int64} {q : Bytes} {e : Entry} (hq : 32 ≤ q.length) :
    ∃ q', parseExpireGet now .get ([chNl], q, e) = .ok ([chNl], q', e) ∧
      q'.length = q.length := by
  obtain ⟨q', h1, h2, h3⟩ := scanDigit_empty (q := q) (t := [chNl]) (c := chNl) (r := []) 0 rfl
    (by decide) (by decide) (by omega)
  refine ⟨q', ?_, h3⟩
  simp only [parseExpireGet, if_true, h1, h2, ne_eq, not_true_eq_false, if_false]

theorem parseExpireGet_skip {now : Int64} {t : ParseType} {c : Cursor} (h : t ≠ .get) :
    parseExpireGet now t c = .ok c := by
  obtain ⟨p, q, e⟩ := c
  simp only [parseExpireGet, if_neg h]

/-! ### Options -/

/-- The option words, each behind a blank. -/
def optText : List Bytes → Bytes
  | [] => []
  | w :: ws => chSpace :: w ++ optText ws

def optVal (w : Bytes) : UInt32 := (optionCast w).getD 0

theorem optText_ends (ws : List Bytes) : Ends (optText ws ++ [chNl]) := by
  cases ws with
  | nil => exact ends_nl _
  | cons w ws => exact ends_space _

theorem parseOptions_blank (n : Nat) (p q : Bytes) (e : Entry) :
    parseOptions (n + 1) (chSpace :: p, q, e) = parseOptions (n + 1) (p, q, e) := by
  simp only [parseOptions, scanWord_blank]

theorem parseOptions_words (ws : List Bytes) (hw : ∀ w ∈ ws, w = strNoreply ∨ w = strSync ∨ w = strAsync)
    (n : Nat) (hn : ws.length < n) (q : Bytes) (hq : 32 ≤ q.length) (e : Entry) :
    ∃ q', parseOptions n (optText ws ++ [chNl], q, e) =
      .ok ([chNl], q', { e with option := ws.foldl (fun o w => o ||| optVal w) e.option }) := by
  induction ws generalizing n q e with
  | nil =>
    obtain ⟨q', h1, h2, h3⟩ := scanWord_nl q (by omega)
    cases n with
    | zero => simp at hn
    | succ n => exact ⟨q', by simp only [optText, List.nil_append, parseOptions, h1, h2, if_true, List.foldl_nil]⟩
  | cons w ws ih =>
    cases n with
    | zero => simp at hn
    | succ n =>
      have h := hw w (by simp)
      have hc : (∀ x ∈ w, wordChar x = true) ∧ w ≠ [] ∧ w.length ≤ 7 ∧
          optionCast w = some (optVal w) := by
        rcases h with rfl | rfl | rfl <;> decide
      obtain ⟨q1, h1, h2, h3⟩ := scanWord_field (q := q) hc.1 hc.2.1 (optText_ends ws) (by omega)
      obtain ⟨q', h4⟩ := ih (fun w hw' => hw w (by simp [hw'])) n (by simpa using hn) q1 (by omega)
        { e with option := e.option ||| optVal w }
      refine ⟨q', ?_⟩
      rw [show optText (w :: ws) ++ [chNl] = chSpace :: w ++ (optText ws ++ [chNl]) by
        simp [optText]]
      simp only [parseOptions, h1, h2, if_neg hc.2.1, hc.2.2.2, h4, List.foldl_cons]

/-- The words of an option set. -/
def optWords (o : UInt32) : List Bytes :=
  (if o &&& optNoreply ≠ 0 then [strNoreply] else []) ++
  (if o &&& optSync ≠ 0 then [strSync] else []) ++
  (if o &&& optAsync ≠ 0 then [strAsync] else [])

theorem optionWords_eq (o : UInt32) : optionWords o = optText (optWords o) := by
  simp only [optionWords, optWords]
  generalize (o &&& optNoreply) = a
  generalize (o &&& optSync) = b
  generalize (o &&& optAsync) = c
  by_cases ha : a = 0 <;> by_cases hb : b = 0 <;> by_cases hc : c = 0 <;>
    simp [ha, hb, hc, optText]

theorem optWords_mem (o : UInt32) :
    ∀ w ∈ optWords o, w = strNoreply ∨ w = strSync ∨ w = strAsync := by
  intro w hw
  simp only [optWords, List.mem_append] at hw
  rcases hw with (hw | hw) | hw <;> split at hw <;> simp_all

theorem optWords_len (o : UInt32) : (optWords o).length ≤ 3 := by
  simp only [optWords, List.length_append]
  split <;> split <;> split <;> simp

theorem optWords_val {o : UInt32} (h : o < 8) :
    (optWords o).foldl (fun o w => o ||| optVal w) 0 = o := by
  have h8 : o.toNat < 8 := by simpa [UInt32.lt_iff_toNat_lt] using h
  have : o = UInt32.ofNat o.toNat := by simp
  rw [this]
  revert h8
  generalize o.toNat = n
  intro h8
  match n, h8 with
  | 0, _ => decide
  | 1, _ => decide
  | 2, _ => decide
  | 3, _ => decide
  | 4, _ => decide
  | 5, _ => decide
  | 6, _ => decide
  | 7, _ => decide

/-- The options at the end of a line, the blank in front of them possibly gone. -/
theorem parseOptions_ok {o : UInt32} (h : o < 8) {q : Bytes} (hq : 32 ≤ q.length) {e : Entry}
    (he : e.option = 0) {n : Nat} (hn : 3 < n) :
    ∃ q', parseOptions n (optionWords o ++ [chNl], q, e) =
      .ok ([chNl], q', { e with option := o }) := by
  obtain ⟨q', h1⟩ := parseOptions_words (optWords o) (optWords_mem o) n
    (by have := optWords_len o; omega) q hq e
  exact ⟨q', by rw [optionWords_eq, h1, he, optWords_val h]⟩

/-- Options split into the blanks and the first other byte. -/
theorem optionWords_head (o : UInt32) : ∃ k c r, k ≤ 1 ∧
    optionWords o ++ [chNl] = List.replicate k chSpace ++ c :: r ∧
    digitChar c = false ∧ c ≠ chSpace := by
  rw [optionWords_eq]
  have hm := optWords_mem o
  cases h : optWords o with
  | nil => exact ⟨0, chNl, [], by omega, by simp [optText], by decide, by decide⟩
  | cons w ws =>
    rw [h] at hm
    rcases hm w (by simp) with rfl | rfl | rfl
    · exact ⟨1, 110, _, by omega, by simp only [optText, strNoreply, List.cons_append, List.replicate, List.nil_append]; rfl, by decide, by decide⟩
    · exact ⟨1, 115, _, by omega, by simp only [optText, strSync, List.cons_append, List.replicate, List.nil_append]; rfl, by decide, by decide⟩
    · exact ⟨1, 97, _, by omega, by simp only [optText, strAsync, List.cons_append, List.replicate, List.nil_append]; rfl, by decide, by decide⟩

theorem optionWords_ends (o : UInt32) : Ends (optionWords o ++ [chNl]) := by
  rw [optionWords_eq]; exact optText_ends _

theorem parseOptions_strip {n k : Nat} (hk : k ≤ 1) (hn : 0 < n) {p q : Bytes} {e : Entry} :
    parseOptions n (p, q, e) = parseOptions n (List.replicate k chSpace ++ p, q, e) := by
  obtain ⟨m, rfl⟩ : ∃ m, n = m + 1 := ⟨n - 1, by omega⟩
  have : k = 0 ∨ k = 1 := by omega
  rcases this with rfl | rfl
  · rfl
  · exact (parseOptions_blank m p q e).symm

end Flare
