import Verif.Lemmas.TextLines

/-! Properties of the text protocol: C34, C35, C36, C50, C55, C56. -/
set_option linter.unusedSimpArgs false
namespace Flare

deriving instance DecidableEq for Except

/-! ### C36: token scanning -/

/-- C36.  For every line and every buffer of at least one byte, `next_word` writes inside the
buffer, leaves the string it has found terminated, leaves the rest of the buffer alone, and
reports exactly the bytes it has gone over: blanks and the word.  The word ends where the
line has a NUL, a blank or a newline, where the line ends, or where the buffer is full. -/
theorem C36_next_word (src dst : Bytes) (hd : dst ≠ []) :
    ∃ b tok rest, src = List.replicate b chSpace ++ tok ++ rest ∧
      (∀ c ∈ tok, c ≠ 0 ∧ c ≠ chSpace ∧ c ≠ chNl) ∧ tok.length < dst.length ∧
      (rest = [] ∨ (∃ c r, rest = c :: r ∧ (c = 0 ∨ c = chSpace ∨ c = chNl)) ∨
        tok.length + 1 = dst.length) ∧
      nextWord src dst = some (b + tok.length, tok ++ 0 :: dst.drop (tok.length + 1)) := by
  have hpos : 0 < dst.length := List.length_pos_iff.2 hd
  have hbl : ∀ s : Bytes, s = List.replicate (blanks s) chSpace ++ s.drop (blanks s) := by
    intro s
    induction s with
    | nil => rfl
    | cons c s ih =>
      by_cases hc : c = chSpace
      · simp only [blanks, hc, if_true, List.replicate_succ, List.cons_append, List.drop_succ_cons]
        rw [← ih]
      · simp [blanks, hc]
  have hmax : ∀ l : Bytes, ∃ r, l = l.takeWhile wordChar ++ r ∧
      (r = [] ∨ ∃ c t, r = c :: t ∧ wordChar c = false) := by
    intro l
    refine ⟨l.dropWhile wordChar, (List.takeWhile_append_dropWhile).symm, ?_⟩
    induction l with
    | nil => simp
    | cons c l ih =>
      by_cases hc : wordChar c = true
      · simpa [hc] using ih
      · right; exact ⟨c, l, by simp [hc], by simpa using hc⟩
  obtain ⟨r, hr1, hr2⟩ := hmax (src.drop (blanks src))
  refine ⟨blanks src, wordTok src dst.length,
    (src.drop (blanks src)).drop (wordTok src dst.length).length, ?_, ?_,
    wordTok_length hpos, ?_, nextWord_eq src dst hpos⟩
  · have hpre : (src.drop (blanks src)).take (wordTok src dst.length).length =
        wordTok src dst.length := by
      have : wordTok src dst.length <+: src.drop (blanks src) :=
        (List.take_prefix _ _).trans (List.takeWhile_prefix _)
      exact (List.prefix_iff_eq_take.1 this).symm
    conv => lhs; rw [hbl src]
    rw [List.append_assoc]
    congr 1
    conv => rhs; lhs; rw [← hpre]
    rw [List.take_append_drop]
  · intro c hc
    simpa [wordChar] using wordTok_mem c hc
  · by_cases hfull : (wordTok src dst.length).length + 1 = dst.length
    · exact .inr (.inr hfull)
    · have hlt := wordTok_length (src := src) hpos
      have hwhole : wordTok src dst.length = (src.drop (blanks src)).takeWhile wordChar := by
        simp only [wordTok, List.length_take] at hfull hlt ⊢
        exact List.take_of_length_le (by omega)
      have hrest : (src.drop (blanks src)).drop (wordTok src dst.length).length = r := by
        rw [hwhole]
        conv => lhs; rw [hr1]
        rw [List.takeWhile_append_of_pos (fun c hc => mem_takeWhile hc)]
        have hz : r.takeWhile wordChar = [] := by
          rcases hr2 with rfl | ⟨c, t, rfl, hc⟩
          · rfl
          · simp [hc]
        rw [hz, List.append_nil, List.drop_left]
      rw [hrest]
      rcases hr2 with rfl | ⟨c, t, rfl, hc⟩
      · exact .inl rfl
      · right; left
        refine ⟨c, t, rfl, ?_⟩
        simp only [wordChar, decide_eq_false_iff_not] at hc
        by_cases h0 : c = 0
        · exact .inl h0
        · by_cases h1 : c = chSpace
          · exact .inr (.inl h1)
          · right; right
            apply Decidable.byContradiction
            intro h2
            exact hc ⟨h0, h1, h2⟩

example : nextWord [32, 32, 97, 98, 32, 99] [7, 7, 7, 7] = some (4, [97, 98, 0, 7]) := by decide
example : nextWord [97, 98, 99] [7, 7] = some (1, [97, 0]) := by decide

/-- C36.  `next_digit` writes outside the buffer in exactly one case: no blank comes before
the number, and the number has at least as many characters as the buffer.  (The loop bound is
the position in the line, not the position in the buffer, and leaves no room for the final
NUL; a blank in front makes up for it.) -/
theorem C36_next_digit (src dst : Bytes) (hd : dst ≠ []) :
    nextDigit src dst = none ↔
      src.head? ≠ some chSpace ∧
      dst.length ≤ (src.takeWhile (fun c => isDigit c || c == chMinus)).length := by
  have hpos : 0 < dst.length := List.length_pos_iff.2 hd
  have hfun : (fun c => isDigit c || c == chMinus) = digitChar := by
    funext c
    simp only [digitChar]
    by_cases h1 : isDigit c = true
    · have a := digit_ne h1 (show isDigit 0 = false by decide)
      have b := digit_ne h1 (show isDigit chNl = false by decide)
      simp [h1, a, b]
    · by_cases h2 : c = chMinus
      · subst h2; decide
      · simp [h1, h2]
  rw [hfun, nextDigit_eq]
  cases src with
  | nil => simp [digitTok]
  | cons c src =>
    by_cases hc : c = chSpace
    · subst hc
      simp only [List.head?_cons, ne_eq, not_true_eq_false, false_and, iff_false]
      rw [if_pos]
      · simp
      · simp only [digitTok, List.length_take, blanks, if_true]; omega
    · have hb : blanks (c :: src) = 0 := by simp [blanks, hc]
      simp only [digitTok, hb, List.drop_zero, Nat.sub_zero, List.length_take, List.head?_cons,
        ne_eq, Option.some.injEq, hc, not_false_eq_true, true_and]
      by_cases h : dst.length ≤ (List.takeWhile digitChar (c :: src)).length
      · rw [if_neg (by omega)]; simp [h]
      · rw [if_pos (by omega)]; simp [h]

example : nextDigit [49, 50, 51] [7, 7, 7] = none := by decide
example : nextDigit [32, 49, 50, 51] [7, 7, 7] = some (3, [49, 50, 0]) := by decide

/-- C36.  Where `next_digit` stays inside the buffer it does what is expected: the number is
made of digits and minus signs, terminated, and the bytes gone over are reported. -/
theorem C36_next_digit_token_partial (src dst : Bytes) (n : Nat) (dst' : Bytes)
    (h : nextDigit src dst = some (n, dst')) :
    dst'.length = dst.length ∧ n = blanks src + (cstr dst').length ∧
      src.take n = List.replicate (blanks src) chSpace ++ cstr dst' ∧
      (∀ c ∈ cstr dst', isDigit c = true ∨ c = chMinus) := by
  rw [nextDigit_eq] at h
  split at h
  case isFalse => exact absurd h (by simp)
  case isTrue hl =>
    simp only [Option.some.injEq, Prod.mk.injEq] at h
    obtain ⟨rfl, rfl⟩ := h
    have hm := digitTok_mem (src := src) (len := dst.length)
    have hc : cstr (digitTok src dst.length ++ 0 :: dst.drop ((digitTok src dst.length).length + 1))
        = digitTok src dst.length := cstr_append (fun c hc => by
      have := hm c hc
      simp only [digitChar, decide_eq_true_eq] at this
      exact this.1)
    rw [hc]
    refine ⟨by simp; omega, rfl, ?_, fun c hc => by
      have := hm c hc
      simp only [digitChar, decide_eq_true_eq] at this
      exact this.2.1⟩
    have hbl : ∀ s : Bytes, s.take (blanks s) = List.replicate (blanks s) chSpace := by
      intro s
      induction s with
      | nil => rfl
      | cons c s ih =>
        by_cases hc : c = chSpace
        · simp only [blanks, hc, if_true, List.replicate_succ, List.take_succ_cons, ih]
        · simp [blanks, hc]
    rw [List.take_add, hbl]
    congr 1
    have : digitTok src dst.length <+: src.drop (blanks src) :=
      (List.take_prefix _ _).trans (List.takeWhile_prefix _)
    exact (List.prefix_iff_eq_take.1 this).symm

/-- C36, violation.  A client can make the server write behind its buffer: in
`set k 000...` with twice as many zeros as the buffer has bytes, less one, the flag fills the
buffer, and the expiry that directly follows is one byte too long.  (The buffer has `BUFSIZ`
bytes; the statement holds for every size.) -/
theorem C36_request_overflow (now : Int64) (q : Bytes) (e : Entry) (hq : 2 ≤ q.length) :
    entryParse now .set
      ([chSpace, 107, chSpace] ++ List.replicate (q.length - 1 + q.length) 48 ++ [chNl]) q e =
      .error .ub := by
  have hk : PlainKey [107] q.length := ⟨by decide, by decide, by simp; omega⟩
  have hz : ∀ n, ∀ x ∈ List.replicate n (48 : UInt8), digitChar x = true := by
    intro n x hx; rw [List.eq_of_mem_replicate hx]; decide
  obtain ⟨q1, a1, b1⟩ := parseKey_ok (e := e) hk
    (ends_space' (List.replicate (q.length - 1 + q.length) 48) [chNl])
  have htw : ∀ n, (List.replicate n (48 : UInt8) ++ [chNl]).takeWhile digitChar =
      List.replicate n 48 := by
    intro n
    rw [List.takeWhile_append_of_pos (hz n), show List.takeWhile digitChar [chNl] = [] by decide]
    simp
  have hval : ∀ n, isUnsignedString (List.replicate (n + 1) 48) = true := by
    intro n
    simp only [isUnsignedString, Bool.and_eq_true, List.all_eq_true]
    refine ⟨by simp [List.replicate_succ], fun x hx => ?_⟩
    rw [List.eq_of_mem_replicate hx]; decide
  have hdec : ∀ n, decValue (List.replicate n 48) = 0 := by
    intro n
    induction n with
    | zero => rfl
    | succ n ih =>
      simp only [List.replicate_succ, decValue, List.foldl_cons] at ih ⊢
      exact ih
  have hlex : ∀ n, lexUnsigned 32 (List.replicate (n + 1) 48) = some 0 := by
    intro n
    have h1 := hval n
    have h2 := hdec (n + 1)
    simp only [List.replicate_succ] at h1 h2 ⊢
    simp only [lexUnsigned, lexNumber, if_neg (show ¬ ((48 : UInt8) = chMinus) by decide),
      if_neg (show ¬ ((48 : UInt8) = chPlus) by decide), h1, h2, if_true]
    rfl
  obtain ⟨m, hm⟩ : ∃ m, q.length - 1 = m + 1 := ⟨q.length - 2, by omega⟩
  have hs2 : ∃ q2, scanDigit (chSpace :: List.replicate (q.length - 1 + q.length) 48 ++ [chNl]) q1 =
      .ok (List.replicate q.length 48 ++ [chNl], q2) ∧ cstr q2 = List.replicate (m + 1) 48 ∧
      q2.length = q.length := by
    have hb : blanks (chSpace :: (List.replicate (q.length - 1 + q.length) 48 ++ [chNl])) = 1 := by
      rw [hm, show m + 1 + q.length = (m + q.length) + 1 by omega, List.replicate_succ]
      rfl
    have htok : digitTok (chSpace :: List.replicate (q.length - 1 + q.length) 48 ++ [chNl])
        q1.length = List.replicate (m + 1) 48 := by
      simp only [digitTok, List.cons_append, hb, List.drop_succ_cons, List.drop_zero, htw, b1,
        List.take_replicate]
      congr 1; omega
    refine ⟨List.replicate (m + 1) 48 ++ 0 :: q1.drop (m + 1 + 1), ?_, ?_, ?_⟩
    · simp only [scanDigit, nextDigit_eq, htok, List.length_replicate]
      rw [if_pos (by omega)]
      simp only [List.cons_append, hb]
      congr 2
      rw [show 1 + (m + 1) = (m + 1) + 1 by omega, List.drop_succ_cons,
        List.drop_append_of_le_length (by simp; omega), List.drop_replicate]
      congr 2; omega
    · exact cstr_append (fun c hc => by rw [List.eq_of_mem_replicate hc]; decide)
    · simp; omega
  obtain ⟨q2, a2, b2, c2⟩ := hs2
  have hs3 : scanDigit (List.replicate q.length 48 ++ [chNl]) q2 = .error .ub := by
    have hb : blanks (List.replicate q.length 48 ++ [chNl]) = 0 := by
      obtain ⟨j, hj⟩ : ∃ j, q.length = j + 1 := ⟨q.length - 1, by omega⟩
      rw [hj, List.replicate_succ]; rfl
    have htok : digitTok (List.replicate q.length 48 ++ [chNl]) q2.length =
        List.replicate q.length 48 := by
      simp only [digitTok, hb, List.drop_zero, htw, c2, Nat.sub_zero, List.take_replicate]
      congr 1; omega
    simp only [scanDigit, nextDigit_eq, htok, List.length_replicate]
    rw [if_neg (by omega)]
  have hflag : parseFlag .set (chSpace :: List.replicate (q.length - 1 + q.length) 48 ++ [chNl],
      q1, { e with key := [107] }) =
      .ok (List.replicate q.length 48 ++ [chNl], q2, { e with key := [107], flag := 0 }) := by
    simp only [parseFlag, if_pos (show ParseType.set ≠ .delete ∧ ParseType.set ≠ .touch by decide),
      a2, b2, hval, hlex, Bool.not_true, Bool.false_eq_true, if_false]
    rw [if_neg (by simp [List.replicate_succ])]
    rfl
  have hexp : parseExpire now .set (List.replicate q.length 48 ++ [chNl], q2,
      { e with key := [107], flag := 0 }) = .error .ub := by
    simp only [parseExpire, if_pos (show ParseType.set ≠ .get by decide), hs3]
  simp only [entryParse]
  rw [show [chSpace, 107, chSpace] ++ List.replicate (q.length - 1 + q.length) 48 ++ [chNl] =
    chSpace :: [107] ++ (chSpace :: List.replicate (q.length - 1 + q.length) 48 ++ [chNl]) by simp,
    Except.bind_ok' a1, Except.bind_ok' hflag, hexp]
  rfl

/-! ### C50: expiry times -/

/-- C50.  A client's expiry: 0 is never, up to 30 days is that far in the future, and more is
a point in time. -/
theorem C50_expiry (now t : Int64) (hnow : 0 ≤ now.toInt)
    (hover : now.toInt + 2592000 < 2 ^ 63) (ht : 0 ≤ t.toInt) :
    (t = 0 → realtime now t = 0) ∧
    (0 < t.toInt → t.toInt ≤ 30 * 24 * 60 * 60 →
      (realtime now t).toInt = now.toInt + t.toInt ∧ now < realtime now t) ∧
    (30 * 24 * 60 * 60 < t.toInt → realtime now t = t) := by
  have hm : maxRealtimeDelta.toInt = 2592000 := by decide
  refine ⟨fun h => by simp [realtime, h], fun h0 h1 => ?_, fun h => ?_⟩
  · have hne : t ≠ 0 := by rintro rfl; exact absurd h0 (by decide)
    have hle : t ≤ maxRealtimeDelta := by rw [Int64.le_iff_toInt_le, hm]; omega
    have hadd : (t + now).toInt = now.toInt + t.toInt := by
      rw [Int64.toInt_add, Int.bmod_eq_of_le (by omega) (by omega)]; omega
    rw [realtime, if_neg hne, if_pos hle]
    exact ⟨hadd, by rw [Int64.lt_iff_toInt_lt, hadd]; omega⟩
  · have hne : t ≠ 0 := by rintro rfl; exact absurd h (by decide)
    rw [realtime, if_neg hne, if_neg (by rw [Int64.le_iff_toInt_le, hm]; omega)]

example : realtime 1700000000 0 = 0 ∧ realtime 1700000000 60 = 1700000060 ∧
    realtime 1700000000 2592000 = 1702592000 ∧
    realtime 1700000000 2592001 = 2592001 := by decide

/-- C50.  A converted expiry is not converted again: whatever the clock of the next node says,
as long as the clock of the first one is past 30 January 1970. -/
theorem C50_converted_stays (now now' t : Int64) (hnow : 2592000 < now.toInt)
    (hover : now.toInt + 2592000 < 2 ^ 63) (ht : 0 ≤ t.toInt) :
    Absolute (realtime now t) ∧ realtime now' (realtime now t) = realtime now t := by
  have hm : maxRealtimeDelta.toInt = 2592000 := by decide
  have habs : ∀ x, Absolute x → realtime now' x = x := by
    rintro x (rfl | hx)
    · rfl
    · rw [realtime]
      split
      · rename_i h; exact h.symm
      · rw [if_neg]
        rw [Int64.le_iff_toInt_le]; rw [Int64.lt_iff_toInt_lt] at hx; omega
  obtain ⟨h1, h2, h3⟩ := C50_expiry now t (by omega) hover ht
  have : Absolute (realtime now t) := by
    by_cases h0 : t = 0
    · exact .inl (h1 h0)
    · have hpos : 0 < t.toInt := by
        rcases Int.lt_or_eq_of_le ht with h | h
        · exact h
        · exact absurd (Int64.toInt_inj.1 (by rw [← h]; rfl)) h0
      right
      rw [Int64.lt_iff_toInt_lt, hm]
      by_cases h : t.toInt ≤ 2592000
      · rw [(h2 hpos h).1]; omega
      · rw [h3 (by omega)]; omega
  exact ⟨this, habs _ this⟩

example : Absolute (realtime 1700000000 60) := .inr (by decide)

/-! ### C34: answers with values -/

/-- C34.  The answer a node sends for a record is read back to the same key, flag, size and
value; `gets` and `dump` also carry the version, `dump` the expiry. -/
theorem C34_answer (now : Int64) (w q : Bytes) (hw : w.length = 8192) (hq : q.length = 8192)
    (t : ResponseType) (e : Entry) (hk : PlainKey e.key 8192) (b more : Bytes)
    (hb : response t e = some b) :
    readAnswer now w q (b ++ more) = .ok (.value
      { key := e.key, flag := e.flag, size := e.size, data := e.data.take e.size.toNat,
        version := if t = .get then 0 else e.version,
        expire := if t = .dump then realtime now e.expire else 0 } more) := by
  have hk' : PlainKey e.key q.length := by rw [hq]; exact hk
  have h := readAnswer_value (now := now) (q := q) (q' := w) (more := more) hk' (by omega)
    (by omega) hb
  rw [h]
  cases t <;> simp

/-- C34.  A whole dump, record after record and then the end, is read back to the same
records, in the same order: key, flag, size, version, expiry and value are the same.  (The
options of an entry are not part of a record.) -/
theorem C34_dump (now : Int64) (w q : Bytes) (hw : w.length = 8192) (hq : q.length = 8192)
    (es : List Entry) (bs : List Bytes)
    (hk : ∀ e ∈ es, PlainKey e.key 8192 ∧ Absolute e.expire ∧ e.data.length = e.size.toNat ∧
      e.option = 0)
    (hb : es.map (response .dump) = bs.map some) (more : Bytes) (fuel : Nat)
    (hf : es.length < fuel) :
    readAnswers now w q fuel (bs.flatten ++ (strEnd ++ crlf ++ more)) = .ok (es, more) := by
  induction es generalizing bs fuel with
  | nil =>
    cases bs with
    | cons b bs => simp at hb
    | nil =>
      cases fuel with
      | zero => simp at hf
      | succ fuel =>
        simp only [List.flatten_nil, List.nil_append, readAnswers, readAnswer_end]
  | cons e es ih =>
    cases bs with
    | nil => simp at hb
    | cons b bs =>
      cases fuel with
      | zero => simp at hf
      | succ fuel =>
        simp only [List.map_cons, List.cons.injEq] at hb
        have he := hk e (by simp)
        have h1 := C34_answer now w q hw hq .dump e he.1 b
          (bs.flatten ++ (strEnd ++ crlf ++ more)) hb.1
        have h2 := ih bs (fun e he => hk e (by simp [he])) hb.2 fuel (by simpa using hf)
        have hx : realtime now e.expire = e.expire := by
          rcases he.2.1 with h | h
          · rw [h]; rfl
          · rw [realtime]
            split
            · rename_i h0; exact h0.symm
            · rw [if_neg]
              rw [Int64.le_iff_toInt_le]; rw [Int64.lt_iff_toInt_lt] at h; omega
        have hd : e.data.take e.size.toNat = e.data := List.take_of_length_le (by omega)
        have : ({ key := e.key, flag := e.flag, size := e.size, data := e.data.take e.size.toNat,
                  version := if ResponseType.dump = .get then 0 else e.version,
                  expire := if ResponseType.dump = .dump then realtime now e.expire else 0 } : Entry)
            = e := by
          rw [hd, hx, if_neg (show ¬ (ResponseType.dump = .get) by decide), if_pos rfl]
          have h0 := he.2.2.2
          cases e
          simp only at h0
          simp [h0]
        rw [this] at h1
        rw [List.flatten_cons, List.append_assoc]
        simp only [readAnswers, h1, h2]

example : response .dump
      { key := [107], flag := 5, size := 2, version := 9, expire := 1800000000,
        data := [120, 121] } =
    some ("VALUE k 5 2 9 1800000000\r\nxy\r\n".toUTF8.data.toList) := by decide +kernel

example : readAnswers 1700000000 (List.replicate 64 0) (List.replicate 64 0) 9
    "VALUE k 5 2 9 1800000000\r\nxy\r\nVALUE l 0 0 1 0\r\n\r\nEND\r\nfoo".toUTF8.data.toList =
    .ok ([{ key := [107], flag := 5, size := 2, version := 9, expire := 1800000000,
            data := [120, 121] },
          { key := [108], version := 1 }], [102, 111, 111]) := by decide +kernel

/-- C34.  The buffer for the line is large enough: `snprintf` does not cut it. -/
theorem C34_response_fits (t : ResponseType) (e : Entry) (b : Bytes)
    (hb : response t e = some b) : b.length < e.size.toNat + e.key.length + 8192 := by
  simp only [response] at hb
  split at hb
  case isFalse => exact absurd hb (by simp)
  case isTrue h =>
    rw [← Option.some.inj hb]
    have h1 : (cstr e.key).length ≤ e.key.length := (List.takeWhile_prefix _).length_le
    have h2 : (decimal e.flag.toNat).length ≤ 20 :=
      decimal_length_64 (by have := e.flag.toNat_lt; omega)
    have h3 : (decimal e.size.toNat).length ≤ 20 := decimal_length_64 e.size.toNat_lt
    have h4 : (decimal e.version.toNat).length ≤ 20 := decimal_length_64 e.version.toNat_lt
    have h5 := decimalInt_length e.expire
    have h6 : strValue.length = 5 := rfl
    have h7 : crlf.length = 2 := rfl
    have h8 : (e.data.take e.size.toNat).length ≤ e.size.toNat := by simp; omega
    simp only [responseLine, List.length_append, List.length_cons]
    split <;> split <;> simp only [List.length_cons, List.length_nil] <;> omega

/-! ### C35: forwarded writes -/

/-- C35.  Every sequence of writes that a node forwards over one connection arrives at the
other end as that sequence, with the same commands, forwarding paths, keys, flags, sizes,
versions, options, amounts and values (see `arrives` for what each kind of write carries).
Nothing of what follows on the connection is consumed. -/
theorem C35_forwarded_writes (now : Int64) (first q : Bytes) (hf : first.length = 1024)
    (hq : q.length = 8192) (rs : List WriteReq) (bs : List Bytes)
    (hr : ∀ r ∈ rs, Sendable r 8192) (hb : rs.map encodeWrite = bs.map some) (more : Bytes) :
    decodeWrites now first q rs.length (bs.flatten ++ more) =
      .ok (rs.map (arrives now), more) := by
  induction rs generalizing bs with
  | nil =>
    cases bs with
    | cons b bs => simp at hb
    | nil => rfl
  | cons r rs ih =>
    cases bs with
    | nil => simp at hb
    | cons b bs =>
      simp only [List.map_cons, List.cons.injEq] at hb
      have h1 := decodeWrite_encode (now := now) (first := first) (q := q) (r := r) (b := b)
        (more := bs.flatten ++ more) (by rw [hq]; exact hr r (by simp)) (by omega) (by omega) hb.1
      have h2 := ih bs (fun r h => hr r (by simp [h])) hb.2
      simp only [List.flatten_cons, List.append_assoc, List.length_cons, decodeWrites, h1, h2,
        List.map_cons]

/-- C35.  A store whose expiry is already a point in time arrives unchanged. -/
theorem C35_store_unchanged (now : Int64) (r : WriteReq)
    (hc : r.cmd ∈ [WriteCmd.set, .add, .replace, .cas, .append, .prepend])
    (hx : Absolute r.entry.expire) (hd : r.entry.data.length = r.entry.size.toNat)
    (hv : r.value = 0) : arrives now r = r := by
  have hx' : realtime now r.entry.expire = r.entry.expire := by
    rcases hx with h | h
    · rw [h]; rfl
    · rw [realtime]
      split
      · rename_i h0; exact h0.symm
      · rw [if_neg]
        rw [Int64.le_iff_toInt_le]; rw [Int64.lt_iff_toInt_lt] at h; omega
  have hd' : r.entry.data.take r.entry.size.toNat = r.entry.data :=
    List.take_of_length_le (by omega)
  obtain ⟨cmd, path, entry, value⟩ := r
  simp only at hc hx' hd' hv
  simp only [List.mem_cons, List.not_mem_nil, or_false] at hc
  rcases hc with rfl | rfl | rfl | rfl | rfl | rfl <;> simp [arrives, hx', hd', hv]

example : encodeWrite
      { cmd := .cas, path := [[97, 58, 49], [98, 58, 50]],
        entry := { key := [107], flag := 7, expire := 1800000000, size := 2, version := 3,
                   option := 3, data := [13, 10] } } =
    some "<a:1,b:2>cas k 7 1800000000 2 3 noreply sync\r\n\r\n\r\n".toUTF8.data.toList := by
  decide +kernel

example : decodeWrites 1700000000 (List.replicate 16 0) (List.replicate 64 0) 3
    ("<a:1,b:2>cas k 7 1800000000 2 3 noreply sync\r\n\r\n\r\nincr c 12 async\r\n" ++
      "<x:1>touch t 60\r\nrest").toUTF8.data.toList =
    .ok ([{ cmd := .cas, path := [[97, 58, 49], [98, 58, 50]],
            entry := { key := [107], flag := 7, expire := 1800000000, size := 2, version := 3,
                       option := 3, data := [13, 10] } },
          { cmd := .incr, entry := { key := [99], option := 4 }, value := 12 },
          { cmd := .touch, path := [[120, 58, 49]],
            entry := { key := [116], expire := 1700000060 } }], [114, 101, 115, 116]) := by
  decide +kernel

/-- C35.  The buffer of a forwarded store is large enough. -/
theorem C35_request_fits (r : WriteReq) (b : Bytes) (hb : encodeWrite r = some b) :
    b.length < (proxyIdent r.path).length + r.entry.key.length +
      (if r.cmd.kind = .store then r.entry.size.toNat else 0) + 8192 := by
  have h1 : (cstr r.entry.key).length ≤ r.entry.key.length := (List.takeWhile_prefix _).length_le
  have h2 : (decimal r.entry.flag.toNat).length ≤ 20 :=
    decimal_length_64 (by have := r.entry.flag.toNat_lt; omega)
  have h3 : (decimal r.entry.size.toNat).length ≤ 20 := decimal_length_64 r.entry.size.toNat_lt
  have h4 : (decimal r.entry.version.toNat).length ≤ 20 :=
    decimal_length_64 r.entry.version.toNat_lt
  have h4' : (decimal r.value.toNat).length ≤ 20 := decimal_length_64 r.value.toNat_lt
  have h5 := decimalInt_length r.entry.expire
  have h7 : crlf.length = 2 := rfl
  have h8 : (r.entry.data.take r.entry.size.toNat).length ≤ r.entry.size.toNat := by simp; omega
  have h9 := (ident_facts r.cmd).2.2.1
  have h10 : (WriteCmd.delete.ident).length = 6 := rfl
  have h11 : (optionWords r.entry.option).length ≤ 30 := by
    simp only [optionWords, List.length_append]
    have : strNoreply.length = 7 := rfl
    have : strSync.length = 4 := rfl
    have : strAsync.length = 5 := rfl
    split <;> split <;> split <;> simp only [List.length_cons, List.length_nil] <;> omega
  cases hk : r.cmd.kind with
  | store =>
    simp only [encodeWrite, hk] at hb
    split at hb
    case isFalse => exact absurd hb (by simp)
    case isTrue h =>
      rw [← Option.some.inj hb, if_pos rfl]
      simp only [storeLine, List.length_append, List.length_cons]
      split <;> simp only [List.length_cons, List.length_nil] <;> omega
  | count =>
    simp only [encodeWrite, hk] at hb
    split at hb
    case isFalse => exact absurd hb (by simp)
    case isTrue h =>
      rw [← Option.some.inj hb, if_neg (by decide)]
      simp only [countLine, List.length_append, List.length_cons]
      omega
  | delete =>
    simp only [encodeWrite, hk] at hb
    split at hb
    case isFalse => exact absurd hb (by simp)
    case isTrue h =>
      rw [← Option.some.inj hb, if_neg (by decide)]
      simp only [deleteLine, List.length_append, List.length_cons]
      split <;> simp only [List.length_cons, List.length_nil] <;> omega
  | touch =>
    simp only [encodeWrite, hk] at hb
    split at hb
    case isFalse => exact absurd hb (by simp)
    case isTrue h =>
      rw [← Option.some.inj hb, if_neg (by decide)]
      simp only [touchLine, List.length_append, List.length_cons]
      have : strNoreply.length = 7 := rfl
      split <;> simp only [List.length_cons, List.length_nil] <;> omega

/-- A key with blanks and line ends, as the binary protocol admits. -/
def evilKey : Bytes := "a 0 0 0\r\n\r\ndelete victim 0\r\nx".toUTF8.data.toList

/-- C35, violation for keys that are not plain.  The binary protocol takes every string of
bytes as a key (/repo/src/lib/storage.cc:198-206), and forwarding puts it into a line
unchanged.  Storing one such key on the wrong node deletes another key on the right one: the
receiver reads a store of `a` and a deletion of `victim`. -/
theorem C35_key_injection (now : Int64) (first q : Bytes) (hf : first.length = 1024)
    (hq : q.length = 8192) :
    ∃ b rest, encodeWrite { cmd := .set, entry := { key := evilKey } } = some b ∧
      decodeWrites now first q 2 b =
        .ok ([{ cmd := .set, entry := { key := "a".toUTF8.data.toList } },
              { cmd := .delete, entry := { key := "victim".toUTF8.data.toList } }], rest) := by
  let r1 : WriteReq := { cmd := .set, entry := { key := [97] } }
  let r2 : WriteReq := { cmd := .delete, entry := { key := [118, 105, 99, 116, 105, 109] } }
  refine ⟨"set a 0 0 0\r\n\r\ndelete victim 0\r\nx 0 0 0\r\n\r\n".toUTF8.data.toList,
    "x 0 0 0\r\n\r\n".toUTF8.data.toList, by decide +kernel, ?_⟩
  have h := C35_forwarded_writes now first q hf hq [r1, r2]
    ["set a 0 0 0\r\n\r\n".toUTF8.data.toList, "delete victim 0\r\n".toUTF8.data.toList]
    (by
      intro r hr
      simp only [List.mem_cons, List.not_mem_nil, or_false] at hr
      rcases hr with rfl | rfl
      · exact ⟨⟨by decide, by decide, by decide⟩, by intro n hn; simp [r1] at hn, by decide, by decide⟩
      · exact ⟨⟨by decide, by decide, by decide⟩, by intro n hn; simp [r2] at hn, by decide, by decide⟩)
    (by decide +kernel) "x 0 0 0\r\n\r\n".toUTF8.data.toList
  exact h

/-! ### C55, C56 -/

/-- C55.  Where a store request is accepted, its value is exactly the announced number of
bytes, these are the bytes that follow the line, and two more bytes are consumed. -/
theorem C55_value_size (now : Int64) (cmd : WriteCmd) (hc : cmd.kind = .store)
    (path : List Bytes) (line q s : Bytes) (r : WriteReq) (rest : Bytes)
    (h : parseParams now cmd path line q s = .ok (r, rest)) :
    r.entry.data.length = r.entry.size.toNat ∧ r.entry.data = s.take r.entry.size.toNat ∧
      rest = s.drop (r.entry.size.toNat + 2) ∧ r.entry.size.toNat + 2 ≤ s.length ∧
      r.entry.size.toNat + 2 ≤ intMax := by
  simp only [parseParams, hc] at h
  cases he : entryParse now (if cmd = .cas then .cas else .set) line q { key := [] } with
  | error f => rw [he] at h; simp at h
  | ok e =>
    rw [he] at h
    simp only [readSize] at h
    by_cases h1 : e.size.toNat + 2 > intMax
    · simp [h1] at h
    · by_cases h2 : s.length < e.size.toNat + 2
      · simp [h1, h2] at h
      · simp only [h1, h2, if_false, Except.ok.injEq, Prod.mk.injEq] at h
        obtain ⟨rfl, rfl⟩ := h
        simp only [List.take_take]
        refine ⟨?_, ?_, trivial, by omega, by omega⟩
        · simp; omega
        · congr 1; omega

/-- C55, violation.  A size of 2147483647 passes the check against `max_data_size`, but two
more do not fit an `int`: the request makes the server copy from a null pointer. -/
theorem C55_size_overflow (now : Int64) (first q s : Bytes) (hf : first.length = 1024)
    (hq : q.length = 8192) :
    decodeWrite now first q ("set k 0 0 2147483647\r\n".toUTF8.data.toList ++ s) =
      .error .ub := by
  have h := decodeWrite_line (now := now) (first := first) (q := q) (path := []) (cmd := .set)
    (t := " k 0 0 2147483647".toUTF8.data.toList) (more := s) (by intro n hn; simp at hn) (by omega)
    (by decide +kernel) ⟨32, "k 0 0 2147483647\n".toUTF8.data.toList, by decide +kernel, .inl rfl⟩
  have hp := entryParse_store (now := now) (t := .set) (q := q)
    (e := { key := [107], size := 2147483647 }) (sent := false) (.inl rfl)
    ⟨by decide, by decide, by rw [hq]; decide⟩ (by decide) (by decide) (by decide) (by omega)
    (by decide) (by intro _; rfl)
  have hline : " k 0 0 2147483647".toUTF8.data.toList ++ [chNl] =
      chSpace :: [107] ++ (chSpace :: decimal (0 : UInt32).toNat ++
      (chSpace :: decimalInt (0 : Int64).toInt ++ (chSpace :: decimal (2147483647 : UInt64).toNat ++
      ((if false then chSpace :: decimal (0 : UInt64).toNat else []) ++
        (optionWords 0 ++ [chNl]))))) := by decide +kernel
  rw [show "set k 0 0 2147483647\r\n".toUTF8.data.toList ++ s = proxyIdent [] ++
    WriteCmd.set.ident ++ " k 0 0 2147483647".toUTF8.data.toList ++ crlf ++ s by
      rw [show "set k 0 0 2147483647\r\n".toUTF8.data.toList = proxyIdent [] ++
        WriteCmd.set.ident ++ " k 0 0 2147483647".toUTF8.data.toList ++ crlf by decide +kernel], h,
    hline]
  simp only [parseParams, show WriteCmd.set.kind = .store from rfl,
    if_neg (show ¬ (WriteCmd.set = .cas) by decide)]
  rw [hp]
  simp only [readSize]
  rw [if_pos (by decide)]

/-- C56.  An amount that a client writes without a sign is the amount used. -/
theorem C56_amount (k : Bytes) (v : UInt64) (o : UInt32) (q : Bytes) (hq : q.length = 8192)
    (hk : PlainKey k 8192) (ho : o < 8) :
    parseCount (chSpace :: k ++ (chSpace :: decimal v.toNat ++ (optionWords o ++ [chNl]))) q
      { key := [] } = .ok ({ key := k, option := o }, v) :=
  parseCount_ok (by rw [hq]; exact hk) ho (by omega)

/-- C56, violation.  A negative amount is not refused: `incr k -1` adds 2^64-1, which sets
every counter to its maximum. -/
theorem C56_negative_amount :
    parseCount " k -1\n".toUTF8.data.toList (List.replicate 64 0) { key := [] } =
      .ok ({ key := [107] }, 18446744073709551615) ∧
    ∀ n : UInt64, (incrValue n 18446744073709551615 true).toNat =
      18446744073709551615 := by
  refine ⟨by decide +kernel, fun n => ?_⟩
  rw [incrValue_incr]
  have : (18446744073709551615 : UInt64).toNat = 18446744073709551615 := by decide
  rw [this]; omega

/-! ### C103: lines that are refused -/

/-- A line without a key is refused. -/
theorem C103_no_key (now : Int64) (t : ParseType) (k : Nat) (q : Bytes) (e : Entry) (hq : 0 < q.length) :
    entryParse now t (List.replicate k chSpace ++ [chNl]) q e = .error .err := by
  have h := scanWord_tok (w := []) (c := chNl) (rest := []) (q := q) k (by simp) (by decide) (by simpa using hq)
    (fun _ => by decide)
  obtain ⟨q', h1, h2, -⟩ := h
  have e1 : parseKey (List.replicate k chSpace ++ [chNl], q, e) = .error .err := by
    simp only [parseKey]
    simp only [List.append_nil, List.nil_append] at h1
    rw [h1]
    simp only [h2, if_pos]
  simp only [entryParse, e1, bind, Except.bind]

/-- "set key flag" and "touch key" without a time are refused, while "delete key" is not. -/
theorem C103_no_time (now : Int64) (k q : Bytes) (f : UInt32) (e : Entry) (hq : 32 ≤ q.length) (hk : PlainKey k q.length) :
    entryParse now .set (chSpace :: k ++ (chSpace :: decimal f.toNat ++ [chNl])) q e = .error .err ∧
    entryParse now .touch (chSpace :: k ++ [chNl]) q e = .error .err ∧
    entryParse now .delete (chSpace :: k ++ [chNl]) q e = .ok { e with key := k } := by
  have none : ∀ (x : Bytes), x.length = q.length →
      ∃ q', scanDigit [chNl] x = .ok ([chNl], q') ∧ cstr q' = [] ∧ q'.length = x.length := fun x hx =>
    scanDigit_empty (q := x) (t := [chNl]) (c := chNl) (r := []) 0 rfl (by decide) (by decide) (by omega)
  refine ⟨?_, ?_, ?_⟩
  · obtain ⟨q1, a1, b1⟩ := parseKey_ok (e := e) (t := chSpace :: decimal f.toNat ++ [chNl]) hk (ends_space _)
    obtain ⟨q2, a2, b2⟩ := parseFlag_ok (t := .set) (f := f) (r := [chNl]) (q := q1) (e := { e with key := k })
      (by decide) (ends_nl _) (by omega)
    obtain ⟨q3, a3, b3, -⟩ := none q2 (by omega)
    have a4 : parseExpire now .set ([chNl], q2, { e with key := k, flag := f }) = .error .err := by
      simp [parseExpire, a3, b3]
    simp only [entryParse, a1, a2, a4, bind, Except.bind]
  · obtain ⟨q1, a1, b1⟩ := parseKey_ok (e := e) (t := [chNl]) hk (ends_nl _)
    obtain ⟨q3, a3, b3, -⟩ := none q1 (by omega)
    have a2 : parseFlag .touch ([chNl], q1, { e with key := k }) = .ok ([chNl], q1, { e with key := k }) :=
      parseFlag_skip (by decide)
    have a4 : parseExpire now .touch ([chNl], q1, { e with key := k }) = .error .err := by
      simp [parseExpire, a3, b3]
    simp only [entryParse, a1, a2, a4, bind, Except.bind]
  · obtain ⟨q1, a1, b1⟩ := parseKey_ok (e := e) (t := [chNl]) hk (ends_nl _)
    obtain ⟨q2, c2, d2, e2⟩ := none q1 (by omega)
    obtain ⟨q3, c3, d3, e3⟩ := none q2 (by omega)
    obtain ⟨q4, c4, d4, e4⟩ := scanWord_nl q3 (by omega)
    have a2 : parseFlag .delete ([chNl], q1, { e with key := k }) = .ok ([chNl], q1, { e with key := k }) :=
      parseFlag_skip (by decide)
    have a3 : parseExpire now .delete ([chNl], q1, { e with key := k }) = .ok ([chNl], q2, { e with key := k }) := by
      simp [parseExpire, c2, d2]
    have a4 : parseSize .delete ([chNl], q2, { e with key := k }) = .ok ([chNl], q2, { e with key := k }) :=
      parseSize_skip (by decide)
    have a5 : parseVersion .delete ([chNl], q2, { e with key := k }) = .ok ([chNl], q3, { e with key := k }) := by
      simp [parseVersion, c3, d3]
    have a6 : parseExpireGet now .delete ([chNl], q3, { e with key := k }) = .ok ([chNl], q3, { e with key := k }) :=
      parseExpireGet_skip (by decide)
    have a7 : ∀ n, parseOptions (n + 1) ([chNl], q3, { e with key := k }) = .ok ([chNl], q4, { e with key := k }) := by
      intro n
      simp [parseOptions, c4, d4]
    simp only [List.cons_append] at a1
    simp [entryParse, a1, a2, a3, a4, a5, a6, a7, bind, Except.bind, pure, Except.pure]

/-- "set key flag time" without a size, and "cas key flag time size" without a version, are refused. -/
theorem C103_no_size (now x : Int64) (k q : Bytes) (f : UInt32) (n : UInt64) (e : Entry) (hq : 32 ≤ q.length)
    (hk : PlainKey k q.length) (hx : 0 ≤ x.toInt) (hn : n.toNat ≤ maxDataSize) :
    entryParse now .set (chSpace :: k ++ (chSpace :: decimal f.toNat ++ (chSpace :: decimalInt x.toInt ++ [chNl]))) q e =
      .error .err ∧
    entryParse now .cas (chSpace :: k ++ (chSpace :: decimal f.toNat ++ (chSpace :: decimalInt x.toInt ++
      (chSpace :: decimal n.toNat ++ [chNl])))) q e = .error .err := by
  have none : ∀ (x : Bytes), x.length = q.length →
      ∃ q', scanDigit [chNl] x = .ok ([chNl], q') ∧ cstr q' = [] ∧ q'.length = x.length := fun x hx =>
    scanDigit_empty (q := x) (t := [chNl]) (c := chNl) (r := []) 0 rfl (by decide) (by decide) (by omega)
  constructor
  · obtain ⟨q1, a1, b1⟩ := parseKey_ok (e := e) (t := chSpace :: decimal f.toNat ++ (chSpace :: decimalInt x.toInt ++ [chNl]))
      hk (ends_space _)
    obtain ⟨q2, a2, b2⟩ := parseFlag_ok (t := .set) (f := f) (r := chSpace :: decimalInt x.toInt ++ [chNl]) (q := q1)
      (e := { e with key := k }) (by decide) (ends_space _) (by omega)
    obtain ⟨q3, a3, b3⟩ := parseExpire_ok (now := now) (t := .set) (x := x) (r := [chNl]) (q := q2)
      (e := { e with key := k, flag := f }) (by decide) hx (ends_nl _) (by omega)
    obtain ⟨q4, c4, d4, -⟩ := none q3 (by omega)
    have a4 : parseSize .set ([chNl], q3, { e with key := k, flag := f, expire := realtime now x }) = .error .err := by
      simp [parseSize, c4, d4]
    simp only [entryParse, a1, a2, a3, a4, bind, Except.bind]
  · obtain ⟨q1, a1, b1⟩ := parseKey_ok (e := e) (t := chSpace :: decimal f.toNat ++ (chSpace :: decimalInt x.toInt ++
      (chSpace :: decimal n.toNat ++ [chNl]))) hk (ends_space _)
    obtain ⟨q2, a2, b2⟩ := parseFlag_ok (t := .cas) (f := f) (r := chSpace :: decimalInt x.toInt ++
      (chSpace :: decimal n.toNat ++ [chNl])) (q := q1) (e := { e with key := k }) (by decide) (ends_space _) (by omega)
    obtain ⟨q3, a3, b3⟩ := parseExpire_ok (now := now) (t := .cas) (x := x) (r := chSpace :: decimal n.toNat ++ [chNl])
      (q := q2) (e := { e with key := k, flag := f }) (by decide) hx (ends_space _) (by omega)
    obtain ⟨q4, a4, b4⟩ := parseSize_ok (t := .cas) (n := n) (r := [chNl]) (q := q3)
      (e := { e with key := k, flag := f, expire := realtime now x }) (by decide) hn (ends_nl _) (by omega)
    obtain ⟨q5, c5, d5, -⟩ := none q4 (by omega)
    have a5 : parseVersion .cas ([chNl], q4, { e with key := k, flag := f, expire := realtime now x, size := n }) =
        .error .err := by
      simp [parseVersion, c5, d5]
    simp only [entryParse, a1, a2, a3, a4, a5, bind, Except.bind]

/-- A word behind the numbers that is none of the options is refused, whatever comes behind it. -/
theorem C103_bad_option (now x : Int64) (k w r q : Bytes) (c : UInt8) (f : UInt32) (n : UInt64) (e : Entry) (hq : 32 ≤ q.length)
    (hk : PlainKey k q.length) (hw : PlainKey (c :: w) q.length) (hc : digitChar c = false) (hx : 0 ≤ x.toInt)
    (hn : n.toNat ≤ maxDataSize) (ho : optionCast (c :: w) = none) (hr : Ends r) :
    entryParse now .set (chSpace :: k ++ (chSpace :: decimal f.toNat ++ (chSpace :: decimalInt x.toInt ++
      (chSpace :: decimal n.toNat ++ (chSpace :: c :: w ++ r))))) q e = .error .err := by
  obtain ⟨q1, a1, b1⟩ := parseKey_ok (e := e) (t := chSpace :: decimal f.toNat ++ (chSpace :: decimalInt x.toInt ++
      (chSpace :: decimal n.toNat ++ (chSpace :: c :: w ++ r)))) hk (ends_space _)
  obtain ⟨q2, a2, b2⟩ := parseFlag_ok (t := .set) (f := f) (r := chSpace :: decimalInt x.toInt ++
      (chSpace :: decimal n.toNat ++ (chSpace :: c :: w ++ r))) (q := q1) (e := { e with key := k })
    (by decide) (ends_space _) (by omega)
  obtain ⟨q3, a3, b3⟩ := parseExpire_ok (now := now) (t := .set) (x := x)
    (r := chSpace :: decimal n.toNat ++ (chSpace :: c :: w ++ r)) (q := q2) (e := { e with key := k, flag := f })
    (by decide) hx (ends_space _) (by omega)
  obtain ⟨q4, a4, b4⟩ := parseSize_ok (t := .set) (n := n) (r := chSpace :: c :: w ++ r) (q := q3)
    (e := { e with key := k, flag := f, expire := realtime now x }) (by decide) hn (ends_space _) (by omega)
  have hs : c ≠ chSpace := (hw.2.1 c (List.mem_cons_self ..)).2.1
  obtain ⟨q5, a5, b5⟩ := parseVersion_none (t := .set) (r := w ++ r) (q := q4) (c := c)
    (e := { e with key := k, flag := f, expire := realtime now x, size := n }) 1 (by decide) hc hs (by omega)
  have a6 : parseExpireGet now .set (c :: (w ++ r), q5, { e with key := k, flag := f, expire := realtime now x, size := n }) =
      .ok (c :: (w ++ r), q5, { e with key := k, flag := f, expire := realtime now x, size := n }) :=
    parseExpireGet_skip (by decide)
  obtain ⟨q6, a7, b7, -⟩ := scanWord_field (t := r) (q := q5) hw.word hw.1 hr (by have := hw.2.2; omega)
  have a8 : ∀ m, parseOptions (m + 1)
      (c :: (w ++ r), q5, { e with key := k, flag := f, expire := realtime now x, size := n }) = .error .err := by
    intro m
    rw [List.cons_append, scanWord_blank] at a7
    simp only [List.cons_append] at a7
    simp [parseOptions, a7, b7, ho]
  simp only [List.replicate_one, List.cons_append, List.nil_append] at a1 a2 a3 a4 a5
  simp [entryParse, a1, a2, a3, a4, a5, a6, a8, bind, Except.bind]

example : entryParse 0 .set "  \n".toUTF8.data.toList (List.replicate 40 0) { key := [] } = .error .err ∧
    entryParse 0 .set " ab 5\n".toUTF8.data.toList (List.replicate 40 0) { key := [] } = .error .err ∧
    entryParse 0 .set " ab 5 0 3 bogus noreply\n".toUTF8.data.toList (List.replicate 40 0) { key := [] } = .error .err ∧
    entryParse 0 .set " ab 5 0 3 noreply\n".toUTF8.data.toList (List.replicate 40 0) { key := [] } =
      .ok { key := [97, 98], flag := 5, size := 3, option := 1 } := by
  decide +kernel

end Flare
