import Verif.Model.Text
import Verif.Lemmas.Decimal

/-! What `next_word` and `next_digit` do, in terms of `takeWhile`. -/
set_option linter.unusedSimpArgs false
namespace Flare

/-- The bytes `next_word` copies. -/
def wordChar (c : UInt8) : Bool := c ≠ 0 ∧ c ≠ chSpace ∧ c ≠ chNl

/-- The bytes `next_digit` copies. -/
def digitChar (c : UInt8) : Bool := c ≠ 0 ∧ (isDigit c = true ∨ c = chMinus) ∧ c ≠ chNl

theorem put_append {a d : Bytes} {x c : UInt8} :
    put (a ++ x :: d) a.length c = some (a ++ c :: d) := by
  simp [put]

theorem put_len {a d : Bytes} {c : UInt8} {n : Nat} (hn : n = a.length) (h : 0 < d.length) :
    put (a ++ d) n c = some (a ++ c :: d.drop 1) := by
  subst hn
  cases d with
  | nil => simp at h
  | cons x d => simp [put]

theorem put_none {a : Bytes} {c : UInt8} {n : Nat} (hn : a.length ≤ n) : put a n c = none := by
  simp [put, hn]

theorem wordCopy_eq (src a d : Bytes) (len : Nat) (hl : len = a.length + d.length)
    (hd : 0 < d.length) :
    wordCopy len src a.length (a ++ d) =
      some (a.length + ((src.takeWhile wordChar).take (d.length - 1)).length,
        a ++ (src.takeWhile wordChar).take (d.length - 1) ++
          0 :: d.drop (((src.takeWhile wordChar).take (d.length - 1)).length + 1)) := by
  induction src generalizing a d with
  | nil => simp [wordCopy, put_len rfl hd]
  | cons c src ih =>
    by_cases hc : wordChar c = true
    · have hc' := hc
      simp only [wordChar, decide_eq_true_eq] at hc'
      by_cases hr : 1 < d.length
      · rw [wordCopy, if_pos ⟨hc'.1, hc'.2.1, hc'.2.2, by omega⟩, put_len rfl hd]
        have hlen : (a ++ [c]).length = a.length + 1 := by simp
        have e1 : a ++ c :: d.drop 1 = (a ++ [c]) ++ d.drop 1 := by simp
        simp only [e1, ← hlen]
        rw [ih (a ++ [c]) (d.drop 1) (by simp; omega) (by simp; omega)]
        obtain ⟨k, hk⟩ : ∃ k, d.length - 1 = k + 1 := ⟨d.length - 2, by omega⟩
        simp only [List.takeWhile_cons, hc, if_true, List.length_drop, hk, List.take_succ_cons,
          List.length_cons, List.length_append, List.length_nil, List.drop_drop, List.append_assoc,
          List.cons_append, List.nil_append, Nat.add_sub_cancel]
        congr 1
        congr 1
        · omega
        · congr 5
          omega
      · have h1 : d.length = 1 := by omega
        rw [wordCopy, if_neg (by omega), put_len rfl hd]
        simp [h1]
    · rw [wordCopy, if_neg (by
        intro h; apply hc; simp only [wordChar, decide_eq_true_eq]; exact ⟨h.1, h.2.1, h.2.2.1⟩),
        put_len rfl hd]
      simp [hc]

/-- The token `next_word` finds. -/
def wordTok (src : Bytes) (len : Nat) : Bytes :=
  ((src.drop (blanks src)).takeWhile wordChar).take (len - 1)

theorem nextWord_eq (src dst : Bytes) (hd : 0 < dst.length) :
    nextWord src dst = some (blanks src + (wordTok src dst.length).length,
      wordTok src dst.length ++ 0 :: dst.drop ((wordTok src dst.length).length + 1)) := by
  have h := wordCopy_eq (src.drop (blanks src)) [] dst dst.length (by simp) hd
  simp only [List.nil_append, List.length_nil, Nat.zero_add] at h
  simp only [nextWord, h, Option.map_some]
  rfl

theorem digitCopy_eq (src a d : Bytes) (len p : Nat) (hl : len = a.length + d.length) :
    digitCopy len src p a.length (a ++ d) =
      if ((src.takeWhile digitChar).take (len - p)).length < d.length then
        some (p + ((src.takeWhile digitChar).take (len - p)).length,
          a ++ (src.takeWhile digitChar).take (len - p) ++
            0 :: d.drop (((src.takeWhile digitChar).take (len - p)).length + 1))
      else none := by
  induction src generalizing a d p with
  | nil =>
    cases d with
    | nil => simp [digitCopy, put_none]
    | cons x d => simp [digitCopy, put_append]
  | cons c src ih =>
    by_cases hc : digitChar c = true
    · have hc' := hc
      simp only [digitChar, decide_eq_true_eq] at hc'
      by_cases hr : p < len
      · rw [digitCopy, if_pos ⟨hc'.1, hc'.2.1, hc'.2.2, by omega⟩]
        obtain ⟨k, hk⟩ : ∃ k, len - p = k + 1 := ⟨len - p - 1, by omega⟩
        have hk' : len - (p + 1) = k := by omega
        by_cases hd : 0 < d.length
        · rw [put_len rfl hd]
          have hlen : (a ++ [c]).length = a.length + 1 := by simp
          have e1 : a ++ c :: d.drop 1 = (a ++ [c]) ++ d.drop 1 := by simp
          simp only [e1, ← hlen]
          rw [ih (a ++ [c]) (d.drop 1) (p + 1) (by simp; omega)]
          simp only [List.takeWhile_cons, hc, if_true, List.length_drop, hk, hk',
            List.take_succ_cons, List.length_cons, List.length_append, List.length_nil,
            List.drop_drop, List.append_assoc, List.cons_append, List.nil_append]
          by_cases hh : (List.take k (List.takeWhile digitChar src)).length < d.length - 1
          · rw [if_pos hh, if_pos (by omega)]
            congr 1
            congr 1
            · omega
            · congr 5
              omega
          · rw [if_neg hh, if_neg (by omega)]
        · have h0 : d = [] := by
            cases d with
            | nil => rfl
            | cons x d => simp at hd
          subst h0
          rw [put_none (by simp)]
          simp
      · rw [digitCopy, if_neg (by omega)]
        have h0 : len - p = 0 := by omega
        cases d with
        | nil => simp [put_none, h0]
        | cons x d => simp [put_append, h0]
    · rw [digitCopy, if_neg (by
        intro h; apply hc; simp only [digitChar, decide_eq_true_eq]; exact ⟨h.1, h.2.1, h.2.2.1⟩)]
      cases d with
      | nil => simp [put_none, hc]
      | cons x d => simp [put_append, hc]

/-- The token `next_digit` finds. -/
def digitTok (src : Bytes) (len : Nat) : Bytes :=
  ((src.drop (blanks src)).takeWhile digitChar).take (len - blanks src)

theorem nextDigit_eq (src dst : Bytes) :
    nextDigit src dst =
      if (digitTok src dst.length).length < dst.length then
        some (blanks src + (digitTok src dst.length).length,
          digitTok src dst.length ++ 0 :: dst.drop ((digitTok src dst.length).length + 1))
      else none := by
  have h := digitCopy_eq (src.drop (blanks src)) [] dst dst.length (blanks src) (by simp)
  simp only [List.nil_append, List.length_nil, Nat.zero_add] at h
  simp only [nextDigit, h]
  rfl

/-- A C string in front of a NUL is read back. -/
theorem cstr_append {w d : Bytes} (h : ∀ c ∈ w, c ≠ 0) : cstr (w ++ 0 :: d) = w := by
  induction w with
  | nil => simp [cstr]
  | cons c w ih =>
    have := ih (fun c hc => h c (by simp [hc]))
    simp only [cstr] at this ⊢
    rw [List.cons_append, List.takeWhile_cons, if_pos (by simpa using h c (by simp)), this]

theorem mem_takeWhile {p : UInt8 → Bool} {l : Bytes} {c : UInt8} (h : c ∈ l.takeWhile p) :
    p c = true := by
  induction l with
  | nil => simp at h
  | cons x l ih =>
    rw [List.takeWhile_cons] at h
    split at h
    · rcases List.mem_cons.1 h with rfl | h
      · assumption
      · exact ih h
    · simp at h

theorem wordTok_mem {src : Bytes} {len : Nat} : ∀ c ∈ wordTok src len, wordChar c = true := by
  intro c hc
  have := List.mem_of_mem_take hc
  exact mem_takeWhile this

theorem digitTok_mem {src : Bytes} {len : Nat} : ∀ c ∈ digitTok src len, digitChar c = true := by
  intro c hc
  exact mem_takeWhile (List.mem_of_mem_take hc)

theorem wordTok_length {src : Bytes} {len : Nat} (h : 0 < len) : (wordTok src len).length < len := by
  simp only [wordTok, List.length_take]; omega

theorem blanks_le (src : Bytes) : blanks src ≤ src.length := by
  induction src with
  | nil => simp [blanks]
  | cons c src ih => simp only [blanks, List.length_cons]; split <;> omega

/-- Scanning a word that is followed by a blank or a newline. -/
theorem scanWord_tok {w : Bytes} {c : UInt8} {rest q : Bytes} (k : Nat)
    (hw : ∀ x ∈ w, wordChar x = true) (hc : wordChar c = false) (hl : w.length < q.length)
    (hcs : w = [] → c ≠ chSpace) :
    ∃ q', scanWord (List.replicate k chSpace ++ w ++ c :: rest) q = .ok (c :: rest, q') ∧
      cstr q' = w ∧ q'.length = q.length := by
  have hb : blanks (List.replicate k chSpace ++ w ++ c :: rest) = k := by
    induction k with
    | zero =>
      cases w with
      | nil => simp [blanks, hcs rfl]
      | cons x w =>
        have := hw x (by simp)
        simp only [wordChar, decide_eq_true_eq] at this
        simp [blanks, this.2.1]
    | succ k ih => simp only [List.replicate_succ, List.cons_append, blanks, if_true, ih]
  have ht : (w ++ c :: rest).takeWhile wordChar = w := by
    rw [List.takeWhile_append_of_pos (fun x hx => hw x hx)]
    simp [hc]
  have htok : wordTok (List.replicate k chSpace ++ w ++ c :: rest) q.length = w := by
    simp only [wordTok, hb]
    rw [show (List.replicate k chSpace ++ w ++ c :: rest).drop k = w ++ c :: rest by simp, ht]
    exact List.take_of_length_le (by omega)
  refine ⟨w ++ 0 :: q.drop (w.length + 1), ?_, ?_, ?_⟩
  · simp only [scanWord, nextWord_eq _ q (by omega), htok, hb]
    congr 2
    rw [List.append_assoc, ← List.drop_drop]
    simp
  · exact cstr_append (fun x hx => by
      have := hw x hx; simp only [wordChar, decide_eq_true_eq] at this; exact this.1)
  · simp; omega

/-- Scanning a number that is followed by something else. -/
theorem scanDigit_tok {w : Bytes} {c : UInt8} {rest q : Bytes} (k : Nat)
    (hw : ∀ x ∈ w, digitChar x = true) (hc : digitChar c = false) (hl : k + w.length < q.length)
    (hcs : w = [] → c ≠ chSpace) :
    ∃ q', scanDigit (List.replicate k chSpace ++ w ++ c :: rest) q = .ok (c :: rest, q') ∧
      cstr q' = w ∧ q'.length = q.length := by
  have hb : blanks (List.replicate k chSpace ++ w ++ c :: rest) = k := by
    clear hl
    induction k with
    | zero =>
      cases w with
      | nil => simp [blanks, hcs rfl]
      | cons x w =>
        have := hw x (by simp)
        have hx : x ≠ chSpace := by
          rintro rfl
          exact absurd this (by decide)
        simp [blanks, hx]
    | succ k ih => simp only [List.replicate_succ, List.cons_append, blanks, if_true, ih]
  have ht : (w ++ c :: rest).takeWhile digitChar = w := by
    rw [List.takeWhile_append_of_pos (fun x hx => hw x hx)]
    simp [hc]
  have htok : digitTok (List.replicate k chSpace ++ w ++ c :: rest) q.length = w := by
    simp only [digitTok, hb]
    rw [show (List.replicate k chSpace ++ w ++ c :: rest).drop k = w ++ c :: rest by simp, ht]
    exact List.take_of_length_le (by omega)
  refine ⟨w ++ 0 :: q.drop (w.length + 1), ?_, ?_, ?_⟩
  · simp only [scanDigit, nextDigit_eq _ q, htok, hb, if_pos (show w.length < q.length by omega)]
    congr 2
    rw [List.append_assoc, ← List.drop_drop]
    simp
  · exact cstr_append (fun x hx => by
      have := hw x hx; simp only [digitChar, decide_eq_true_eq] at this; exact this.1)
  · simp; omega

end Flare
