import Verif.Lemmas.Text

/-! Whole lines: requests and answers. -/
set_option linter.unusedSimpArgs false
namespace Flare

theorem ends_space' (a b : Bytes) : Ends (chSpace :: a ++ b) := ends_space _

/-! ### Lines on the stream -/

theorem readLine_crlf {l rest : Bytes} (h : ∀ c ∈ l, c ≠ chNl) :
    readLine (l ++ crlf ++ rest) = some (l ++ [chNl], rest) := by
  have h1 : (l ++ crlf ++ rest).takeWhile (fun c => decide (c ≠ chNl)) = l ++ [chCr] := by
    rw [show l ++ crlf ++ rest = (l ++ [chCr]) ++ chNl :: rest by simp [crlf],
      List.takeWhile_append_of_pos]
    · simp
    · intro c hc
      simp only [List.mem_append, List.mem_singleton] at hc
      rcases hc with hc | rfl
      · simpa using h c hc
      · decide
  simp only [readLine, h1]
  rw [show l ++ crlf ++ rest = (l ++ [chCr]) ++ chNl :: rest by simp [crlf], List.drop_left]
  simp

theorem wordChar_ne_nl {c : UInt8} (h : wordChar c = true) : c ≠ chNl := by
  simp only [wordChar, decide_eq_true_eq] at h; exact h.2.2

theorem digit_ne_nl {c : UInt8} (h : digitChar c = true) : c ≠ chNl := by
  simp only [digitChar, decide_eq_true_eq] at h; exact h.2.2

theorem decimal_ne_nl (n : Nat) : ∀ c ∈ decimal n, c ≠ chNl :=
  fun c hc => digit_ne_nl (digitChar_of_isDigit (decimal_digits n c hc))

theorem decimalInt_ne_nl (n : Int) : ∀ c ∈ decimalInt n, c ≠ chNl :=
  fun c hc => digit_ne_nl (decimalInt_chars n c hc)

theorem optionWords_ne_nl (o : UInt32) : ∀ c ∈ optionWords o, c ≠ chNl := by
  intro c hc
  simp only [optionWords, List.mem_append] at hc
  rcases hc with (hc | hc) | hc
  all_goals
    split at hc
    · rcases List.mem_cons.1 hc with rfl | hc
      · decide
      · revert hc; revert c; decide
    · simp at hc

/-! ### The forwarding path -/

theorem joinComma_foldl (l : List Bytes) (s : Bytes) (hs : s ≠ []) :
    l.foldl (fun s x => if s = [] then x else s ++ chComma :: x) s =
      s ++ l.flatMap (fun x => chComma :: x) := by
  induction l generalizing s with
  | nil => simp
  | cons x l ih =>
    rw [List.foldl_cons, if_neg hs, ih _ (by simp)]
    simp

theorem joinComma_cons {x : Bytes} {l : List Bytes} (hx : x ≠ []) :
    joinComma (x :: l) = x ++ l.flatMap (fun x => chComma :: x) := by
  rw [joinComma, List.foldl_cons, if_pos rfl, joinComma_foldl l x hx]

theorem splitComma_token {x acc : Bytes} (s : Bytes) (hx : ∀ c ∈ x, c ≠ chComma) :
    splitCommaAux (x ++ s) acc = splitCommaAux s (acc ++ x) := by
  induction x generalizing acc with
  | nil => simp
  | cons c x ih =>
    rw [List.cons_append, splitCommaAux, if_neg (hx c (by simp)),
      ih (fun c hc => hx c (by simp [hc]))]
    simp

theorem splitComma_list {l : List Bytes} {acc : Bytes} (ha : acc ≠ [])
    (hl : ∀ x ∈ l, x ≠ [] ∧ ∀ c ∈ x, c ≠ chComma) :
    splitCommaAux (l.flatMap (fun x => chComma :: x)) acc = acc :: l := by
  induction l generalizing acc with
  | nil => simp [splitCommaAux, ha]
  | cons x l ih =>
    have hx := hl x (by simp)
    rw [List.flatMap_cons, List.cons_append, splitCommaAux, if_pos rfl, if_neg ha,
      splitComma_token _ hx.2, List.nil_append, ih hx.1 (fun y hy => hl y (by simp [hy]))]

theorem splitComma_join {l : List Bytes} (hl : ∀ x ∈ l, x ≠ [] ∧ ∀ c ∈ x, c ≠ chComma) :
    splitComma (joinComma l) = l := by
  cases l with
  | nil => rfl
  | cons x l =>
    have hx := hl x (by simp)
    rw [joinComma_cons hx.1, splitComma, splitComma_token _ hx.2, List.nil_append,
      splitComma_list hx.1 (fun y hy => hl y (by simp [hy]))]

theorem joinComma_chars {l : List Bytes} (h : PlainPath l) :
    ∀ c ∈ joinComma l, c ≠ 0 ∧ c ≠ chNl ∧ c ≠ chGt := by
  cases l with
  | nil => intro c hc; simp [joinComma] at hc
  | cons x l =>
    have hx := h x (by simp)
    rw [joinComma_cons hx.1]
    intro c hc
    rcases List.mem_append.1 hc with hc | hc
    · have := hx.2 c hc; exact ⟨this.1, this.2.1, this.2.2.2⟩
    · obtain ⟨y, hy, hc⟩ := List.mem_flatMap.1 hc
      rcases List.mem_cons.1 hc with rfl | hc
      · decide
      · have := (h y (by simp [hy])).2 c hc; exact ⟨this.1, this.2.1, this.2.2.2⟩

theorem proxyIdent_ne_nl {l : List Bytes} (h : PlainPath l) : ∀ c ∈ proxyIdent l, c ≠ chNl := by
  intro c hc
  simp only [proxyIdent] at hc
  split at hc
  · simp at hc
  · simp only [List.cons_append, List.mem_cons, List.mem_append, List.not_mem_nil, or_false] at hc
    rcases hc with rfl | hc | rfl
    · decide
    · exact (joinComma_chars h c hc).2.1
    · decide

theorem ident_facts (c : WriteCmd) : (∀ x ∈ c.ident, wordChar x = true) ∧ c.ident ≠ [] ∧
    c.ident.length ≤ 7 ∧ c.ident.head? ≠ some chLt ∧ writeCmdOf c.ident = some c := by
  cases c <;> decide

theorem parseServer_ok {path : List Bytes} {cmd : WriteCmd} {t first : Bytes}
    (hp : PlainPath path) (ht : Ends t) (hf : 8 ≤ first.length) :
    ∃ o, parseServer (proxyIdent path ++ cmd.ident ++ t) first = .ok (o, cmd.ident, t) ∧
      o.getD [] = path := by
  obtain ⟨h1, h2, h3, h4, h5⟩ := ident_facts cmd
  have hscan : ∃ q', scanWord (cmd.ident ++ t) first = .ok (t, q') ∧ cstr q' = cmd.ident := by
    obtain ⟨c, r, rfl, hc⟩ := ht
    obtain ⟨q', a, b, _⟩ := scanWord_tok (w := cmd.ident) (c := c) (rest := r) (q := first) 0 h1
      (by rcases hc with rfl | rfl <;> decide) (by omega) (fun h => absurd h h2)
    exact ⟨q', by simpa using a, b⟩
  obtain ⟨q', a, b⟩ := hscan
  by_cases hpath : path = []
  · refine ⟨none, ?_, by simp [hpath]⟩
    have hh : ∃ x l, cmd.ident ++ t = x :: l ∧ x ≠ chLt := by
      cases hc : cmd.ident with
      | nil => exact absurd hc h2
      | cons x l =>
        refine ⟨x, l ++ t, rfl, ?_⟩
        rw [hc] at h4
        simpa using h4
    obtain ⟨x, l, e1, e2⟩ := hh
    simp only [proxyIdent, hpath, if_true, List.nil_append, parseServer]
    rw [e1]
    simp only [e2, false_and, if_false]
    rw [← e1]
    simp only [a, b]
  · refine ⟨some path, ?_, rfl⟩
    have hj := joinComma_chars hp
    have e1 : proxyIdent path ++ cmd.ident ++ t =
        chLt :: (joinComma path ++ chGt :: (cmd.ident ++ t)) := by
      simp [proxyIdent, hpath]
    have hmem : chGt ∈ cstr (joinComma path ++ chGt :: (cmd.ident ++ t)) := by
      simp only [cstr]
      rw [List.takeWhile_append_of_pos (fun c hc => by simpa using (hj c hc).1),
        List.takeWhile_cons, if_pos (by decide)]
      simp
    have htw : (joinComma path ++ chGt :: (cmd.ident ++ t)).takeWhile (fun c => decide (c ≠ chGt))
        = joinComma path := by
      rw [List.takeWhile_append_of_pos (fun c hc => by simpa using (hj c hc).2.2)]
      simp
    have hdw : (joinComma path ++ chGt :: (cmd.ident ++ t)).dropWhile (fun c => decide (c ≠ chGt))
        = chGt :: (cmd.ident ++ t) := by
      rw [List.dropWhile_append_of_pos (fun c hc => by simpa using (hj c hc).2.2)]
      simp
    rw [e1]
    simp only [parseServer, hmem, and_self, if_true, htw, hdw, List.drop_succ_cons, List.drop_zero,
      a, b]
    rw [splitComma_join (fun x hx => ⟨(hp x hx).1, fun c hc => ((hp x hx).2 c hc).2.2.1⟩)]

/-! ### Entries -/

theorem Except.bind_ok' {α β : Type} {x : Except Fault α} {a : α} {f : α → Except Fault β}
    (h : x = .ok a) : (x >>= f) = f a := by rw [h]; rfl

/-- The parameters of a store. -/
theorem entryParse_store {now : Int64} {t : ParseType} {q : Bytes} {e : Entry} {sent : Bool}
    (ht : t = .set ∨ t = .cas) (hk : PlainKey e.key q.length) (hx : 0 ≤ e.expire.toInt)
    (hs : e.size.toNat ≤ maxDataSize) (ho : e.option < 8) (hq : 32 ≤ q.length)
    (hcas : t = .cas → sent = true) (hsent : sent = false → e.version = 0) :
    entryParse now t (chSpace :: e.key ++ (chSpace :: decimal e.flag.toNat ++
      (chSpace :: decimalInt e.expire.toInt ++ (chSpace :: decimal e.size.toNat ++
      ((if sent then chSpace :: decimal e.version.toNat else []) ++
        (optionWords e.option ++ [chNl])))))) q { key := [] } =
      .ok { e with expire := realtime now e.expire, data := [] } := by
  have h1 : t ≠ .delete ∧ t ≠ .touch := by rcases ht with rfl | rfl <;> decide
  have h2 : t ≠ .get := by rcases ht with rfl | rfl <;> decide
  have hends : Ends ((if sent then chSpace :: decimal e.version.toNat else []) ++
        (optionWords e.option ++ [chNl])) := by
    cases sent
    · exact optionWords_ends _
    · exact ends_space _
  obtain ⟨q1, a1, b1⟩ := parseKey_ok (e := { key := [] }) hk
    (ends_space' (decimal e.flag.toNat) (
      (chSpace :: decimalInt e.expire.toInt ++ (chSpace :: decimal e.size.toNat ++
      ((if sent then chSpace :: decimal e.version.toNat else []) ++
        (optionWords e.option ++ [chNl]))))))
  obtain ⟨q2, a2, b2⟩ := parseFlag_ok (t := t) (f := e.flag) (q := q1) (e := { key := e.key }) h1
    (ends_space' (decimalInt e.expire.toInt) ( (chSpace :: decimal e.size.toNat ++
      ((if sent then chSpace :: decimal e.version.toNat else []) ++
        (optionWords e.option ++ [chNl]))))) (by omega)
  obtain ⟨q3, a3, b3⟩ := parseExpire_ok (now := now) (t := t) (x := e.expire) (q := q2)
    (e := { key := e.key, flag := e.flag }) h2 hx
    (ends_space' (decimal e.size.toNat) (
      ((if sent then chSpace :: decimal e.version.toNat else []) ++
        (optionWords e.option ++ [chNl])))) (by omega)
  obtain ⟨q4, a4, b4⟩ := parseSize_ok (t := t) (n := e.size) (q := q3)
    (e := { key := e.key, flag := e.flag, expire := realtime now e.expire }) h1 hs hends (by omega)
  have hv : ∃ k p q5, k ≤ 1 ∧ List.replicate k chSpace ++ p = optionWords e.option ++ [chNl] ∧
      parseVersion t ((if sent then chSpace :: decimal e.version.toNat else []) ++
        (optionWords e.option ++ [chNl]), q4,
        { key := e.key, flag := e.flag, expire := realtime now e.expire, size := e.size }) =
      .ok (p, q5, { key := e.key, flag := e.flag, expire := realtime now e.expire,
                    size := e.size, version := e.version }) ∧ q5.length = q4.length := by
    cases hsb : sent
    · have hne : t ≠ .cas := by
        intro h; rw [hcas h] at hsb; exact absurd hsb (by decide)
      obtain ⟨k, c, r, hk1, hk2, hc1, hc2⟩ := optionWords_head e.option
      obtain ⟨q5, a5, b5⟩ := parseVersion_none (t := t) (r := r) (q := q4)
        (e := { key := e.key, flag := e.flag, expire := realtime now e.expire, size := e.size })
        k hne hc1 hc2 (by omega)
      refine ⟨k, c :: r, q5, hk1, hk2.symm, ?_, b5⟩
      rw [hsent hsb]
      simp only [Bool.false_eq_true, if_false, List.nil_append, hk2, a5]
    · obtain ⟨q5, a5, b5⟩ := parseVersion_ok (t := t) (n := e.version) (q := q4)
        (e := { key := e.key, flag := e.flag, expire := realtime now e.expire, size := e.size })
        (optionWords_ends e.option) (by omega)
      exact ⟨0, _, q5, by omega, rfl, by simpa using a5, b5⟩
  obtain ⟨k, p, q5, hk5, e5, a5, b5⟩ := hv
  simp only [entryParse]
  rw [Except.bind_ok' a1]
  dsimp only
  rw [Except.bind_ok' a2]
  dsimp only
  rw [Except.bind_ok' a3]
  dsimp only
  rw [Except.bind_ok' a4]
  dsimp only
  rw [Except.bind_ok' a5, Except.bind_ok' (parseExpireGet_skip h2), if_pos h2,
    parseOptions_strip hk5 (by omega), e5]
  obtain ⟨q6, a6⟩ := parseOptions_ok ho (q := q5) (by omega)
    (e := { key := e.key, flag := e.flag, expire := realtime now e.expire, size := e.size,
            version := e.version }) rfl
    (n := List.length (chSpace :: e.key ++ (chSpace :: decimal e.flag.toNat ++
      (chSpace :: decimalInt e.expire.toInt ++ (chSpace :: decimal e.size.toNat ++
      ((if sent then chSpace :: decimal e.version.toNat else []) ++
        (optionWords e.option ++ [chNl])))))) + 1) (by simp; omega)
  rw [Except.bind_ok' a6]
  rfl

/-- The parameters of a deletion. -/
theorem entryParse_delete {now : Int64} {q : Bytes} {e : Entry}
    (hk : PlainKey e.key q.length) (hx : 0 ≤ e.expire.toInt)
    (ho : e.option < 8) (hq : 32 ≤ q.length) :
    entryParse now .delete (chSpace :: e.key ++
      (chSpace :: decimalInt e.expire.toInt ++
      ((if e.version > 0 then chSpace :: decimal e.version.toNat else []) ++
        (optionWords e.option ++ [chNl])))) q { key := [] } =
      .ok { key := e.key, expire := realtime now e.expire, version := e.version,
            option := e.option } := by
  have hends : Ends ((if e.version > 0 then chSpace :: decimal e.version.toNat else []) ++
        (optionWords e.option ++ [chNl])) := by
    split
    · exact ends_space _
    · exact optionWords_ends _
  obtain ⟨q1, a1, b1⟩ := parseKey_ok (e := { key := [] }) hk
    (ends_space' (decimalInt e.expire.toInt) (
      ((if e.version > 0 then chSpace :: decimal e.version.toNat else []) ++
        (optionWords e.option ++ [chNl]))))
  obtain ⟨q3, a3, b3⟩ := parseExpire_ok (now := now) (t := .delete) (x := e.expire) (q := q1)
    (e := { key := e.key }) (by decide) hx hends (by omega)
  have hv : ∃ k p q5, k ≤ 1 ∧ List.replicate k chSpace ++ p = optionWords e.option ++ [chNl] ∧
      parseVersion .delete ((if e.version > 0 then chSpace :: decimal e.version.toNat else []) ++
        (optionWords e.option ++ [chNl]), q3,
        { key := e.key, expire := realtime now e.expire }) =
      .ok (p, q5, { key := e.key, expire := realtime now e.expire, version := e.version }) ∧
      q5.length = q3.length := by
    by_cases hsb : e.version > 0
    · obtain ⟨q5, a5, b5⟩ := parseVersion_ok (t := .delete) (n := e.version) (q := q3)
        (e := { key := e.key, expire := realtime now e.expire })
        (optionWords_ends e.option) (by omega)
      exact ⟨0, _, q5, by omega, rfl, by rw [if_pos hsb]; simpa using a5, b5⟩
    · have h0 : e.version = 0 := by
        have : e.version.toNat = 0 := by
          simpa [UInt64.lt_iff_toNat_lt] using hsb
        exact UInt64.toNat_inj.1 (by simpa using this)
      obtain ⟨k, c, r, hk1, hk2, hc1, hc2⟩ := optionWords_head e.option
      obtain ⟨q5, a5, b5⟩ := parseVersion_none (t := .delete) (r := r) (q := q3)
        (e := { key := e.key, expire := realtime now e.expire })
        k (by decide) hc1 hc2 (by omega)
      refine ⟨k, c :: r, q5, hk1, hk2.symm, ?_, b5⟩
      rw [if_neg hsb, h0, List.nil_append, hk2, a5]
  obtain ⟨k, p, q5, hk5, e5, a5, b5⟩ := hv
  simp only [entryParse]
  rw [Except.bind_ok' a1, Except.bind_ok' (parseFlag_skip (by decide))]
  dsimp only
  rw [Except.bind_ok' a3, Except.bind_ok' (parseSize_skip (by decide))]
  dsimp only
  rw [Except.bind_ok' a5, Except.bind_ok' (parseExpireGet_skip (by decide)), if_pos (by decide),
    parseOptions_strip hk5 (by omega), e5]
  obtain ⟨q6, a6⟩ := parseOptions_ok ho (q := q5) (by omega)
    (e := { key := e.key, expire := realtime now e.expire, version := e.version }) rfl
    (n := List.length (chSpace :: e.key ++
      (chSpace :: decimalInt e.expire.toInt ++
      ((if e.version > 0 then chSpace :: decimal e.version.toNat else []) ++
        (optionWords e.option ++ [chNl])))) + 1) (by
      have := decimalInt_ne_nil e.expire.toInt
      have := List.length_pos_iff.2 this
      simp; omega)
  rw [Except.bind_ok' a6]
  rfl

theorem and_noreply_lt (o : UInt32) : o &&& optNoreply < 8 := by
  rw [UInt32.lt_iff_toNat_lt, UInt32.toNat_and]
  exact Nat.lt_of_le_of_lt Nat.and_le_right (by decide)

theorem noreply_words (o : UInt32) :
    (if o &&& optNoreply ≠ 0 then chSpace :: strNoreply else []) =
      optionWords (o &&& optNoreply) := by
  have h : (o &&& optNoreply).toNat ≤ 1 := by
    rw [UInt32.toNat_and]; exact Nat.and_le_right
  have : o &&& optNoreply = 0 ∨ o &&& optNoreply = 1 := by
    have h2 : (o &&& optNoreply).toNat = 0 ∨ (o &&& optNoreply).toNat = 1 := by omega
    rcases h2 with h2 | h2
    · exact .inl (UInt32.toNat_inj.1 (by simpa using h2))
    · exact .inr (UInt32.toNat_inj.1 (by simpa using h2))
  rcases this with h | h <;> rw [h] <;> decide

/-- The parameters of a touch. -/
theorem entryParse_touch {now : Int64} {q : Bytes} {e : Entry}
    (hk : PlainKey e.key q.length) (hx : 0 ≤ e.expire.toInt) (hq : 32 ≤ q.length) :
    entryParse now .touch (chSpace :: e.key ++ (chSpace :: decimalInt e.expire.toInt ++
        (optionWords (e.option &&& optNoreply) ++ [chNl]))) q { key := [] } =
      .ok { key := e.key, expire := realtime now e.expire,
            option := e.option &&& optNoreply } := by
  have ho := and_noreply_lt e.option
  revert ho
  generalize e.option &&& optNoreply = o
  intro ho
  obtain ⟨q1, a1, b1⟩ := parseKey_ok (e := { key := [] }) hk
    (ends_space' (decimalInt e.expire.toInt) ( (optionWords o ++ [chNl])))
  obtain ⟨q3, a3, b3⟩ := parseExpire_ok (now := now) (t := .touch) (x := e.expire) (q := q1)
    (e := { key := e.key }) (by decide) hx (optionWords_ends o) (by omega)
  obtain ⟨k, c, r, hk1, hk2, hc1, hc2⟩ := optionWords_head o
  obtain ⟨q5, a5, b5⟩ := parseVersion_none (t := .touch) (r := r) (q := q3)
    (e := { key := e.key, expire := realtime now e.expire }) k (by decide) hc1 hc2 (by omega)
  simp only [entryParse]
  rw [Except.bind_ok' a1, Except.bind_ok' (parseFlag_skip (by decide))]
  dsimp only
  rw [Except.bind_ok' a3, Except.bind_ok' (parseSize_skip (by decide))]
  dsimp only
  rw [show optionWords o ++ [chNl] = List.replicate k chSpace ++ c :: r from hk2,
    Except.bind_ok' a5, Except.bind_ok' (parseExpireGet_skip (by decide)), if_pos (by decide),
    parseOptions_strip hk1 (by omega), ← hk2]
  obtain ⟨q6, a6⟩ := parseOptions_ok ho (q := q5) (by omega)
    (e := { key := e.key, expire := realtime now e.expire }) rfl
    (n := List.length (chSpace :: e.key ++ (chSpace :: decimalInt e.expire.toInt ++
        (optionWords o ++ [chNl]))) + 1) (by
      have h1 := List.length_pos_iff.2 (decimalInt_ne_nil e.expire.toInt)
      have h2 := List.length_pos_iff.2 hk.1
      simp; omega)
  rw [Except.bind_ok' a6]
  rfl

/-- The parameters of incr and decr. -/
theorem parseCount_ok {q : Bytes} {k : Bytes} {o : UInt32} {v : UInt64}
    (hk : PlainKey k q.length) (ho : o < 8) (hq : 32 ≤ q.length) :
    parseCount (chSpace :: k ++ (chSpace :: decimal v.toNat ++
        (optionWords o ++ [chNl]))) q { key := [] } =
      .ok ({ key := k, option := o }, v) := by
  obtain ⟨q1, a1, b1⟩ := parseKey_ok (e := { key := [] }) hk
    (ends_space' (decimal v.toNat) ( (optionWords o ++ [chNl])))
  have hlt := v.toNat_lt
  have hl : (decimal v.toNat).length ≤ 20 := decimal_length_64 (by omega)
  obtain ⟨q2, a2, b2, c2⟩ := scanDigit_field (q := q1) (t := optionWords o ++ [chNl])
    (fun x hx => digitChar_of_isDigit (decimal_digits v.toNat x hx)) (decimal_ne_nil _)
    (optionWords_ends o) (by omega)
  have hfuel : 3 < List.length (optionWords o ++ [chNl]) + 1 ∨ o = 0 := by
    by_cases h0 : o = 0
    · exact .inr h0
    · left
      have h8 : o.toNat < 8 := by simpa [UInt32.lt_iff_toNat_lt] using ho
      have hne : o.toNat ≠ 0 := fun h => h0 (UInt32.toNat_inj.1 (by simpa using h))
      have : o = UInt32.ofNat o.toNat := by simp
      rw [this]
      revert h8 hne
      generalize o.toNat = n
      intro h8 hne
      match n, h8, hne with
      | 1, _, _ => decide
      | 2, _, _ => decide
      | 3, _, _ => decide
      | 4, _, _ => decide
      | 5, _, _ => decide
      | 6, _, _ => decide
      | 7, _, _ => decide
  have hopt : ∃ q', parseOptions (List.length (optionWords o ++ [chNl]) + 1)
      (optionWords o ++ [chNl], q2, { key := k }) = .ok ([chNl], q', { key := k, option := o }) := by
    rcases hfuel with h | rfl
    · exact parseOptions_ok ho (by omega) rfl h
    · obtain ⟨q', h1, h2, h3⟩ := scanWord_nl q2 (by omega)
      refine ⟨q', ?_⟩
      show parseOptions 2 ([chNl], q2, { key := k }) = _
      simp only [parseOptions, h1, h2, if_true]
  obtain ⟨q3, a3⟩ := hopt
  simp only [parseCount, a1, a2, b2, if_neg (decimal_ne_nil _), lexUnsigned_decimal hlt, a3,
    UInt64.ofNat_toNat]

/-! ### One request -/

theorem readSize_ok {n : Nat} {d rest : Bytes} (hn : n ≤ intMax) (hd : d.length = n) :
    readSize n (d ++ rest) = .ok (d, rest) := by
  subst hd
  simp only [readSize, if_neg (show ¬ d.length > intMax by omega), List.length_append,
    if_neg (show ¬ d.length + rest.length < d.length by omega), List.take_left, List.drop_left]

theorem not_zero_of_pos {v : UInt64} : ¬ v > 0 → v = 0 := by
  intro h
  have : v.toNat = 0 := by simpa [UInt64.lt_iff_toNat_lt] using h
  exact UInt64.toNat_inj.1 (by simpa using this)

theorem decodeWrite_line {now : Int64} {first q : Bytes} {path : List Bytes} {cmd : WriteCmd}
    {t more : Bytes} (hp : PlainPath path) (hf : 8 ≤ first.length)
    (ht : ∀ c ∈ t, c ≠ chNl) (he : Ends (t ++ [chNl])) :
    decodeWrite now first q (proxyIdent path ++ cmd.ident ++ t ++ crlf ++ more) =
      parseParams now cmd path (t ++ [chNl]) q more := by
  have hid := (ident_facts cmd)
  have h1 : readLine (proxyIdent path ++ cmd.ident ++ t ++ crlf ++ more) =
      some (proxyIdent path ++ cmd.ident ++ t ++ [chNl], more) := by
    apply readLine_crlf
    intro c hc
    simp only [List.mem_append] at hc
    rcases hc with (hc | hc) | hc
    · exact proxyIdent_ne_nl hp c hc
    · exact wordChar_ne_nl (hid.1 c hc)
    · exact ht c hc
  obtain ⟨o, h2, h3⟩ := parseServer_ok (cmd := cmd) hp he hf
  rw [show proxyIdent path ++ cmd.ident ++ (t ++ [chNl]) =
    proxyIdent path ++ cmd.ident ++ t ++ [chNl] by simp] at h2
  simp only [decodeWrite, h1, h2, hid.2.2.2.2, h3]

theorem plainKey_nl {k : Bytes} {n : Nat} (h : PlainKey k n) : ∀ c ∈ k, c ≠ chNl :=
  fun c hc => (h.2.1 c hc).2.2

theorem mem_space {l : Bytes} (hl : ∀ c ∈ l, c ≠ chNl) : ∀ c ∈ chSpace :: l, c ≠ chNl := by
  intro c hc
  rcases List.mem_cons.1 hc with rfl | hc
  · decide
  · exact hl c hc

theorem mem_app {l m : Bytes} (hl : ∀ c ∈ l, c ≠ chNl) (hm : ∀ c ∈ m, c ≠ chNl) :
    ∀ c ∈ l ++ m, c ≠ chNl := by
  intro c hc
  rcases List.mem_append.1 hc with hc | hc
  · exact hl c hc
  · exact hm c hc

/-- One forwarded write is read as `arrives` says. -/
theorem decodeWrite_encode {now : Int64} {first q : Bytes} {r : WriteReq} {b more : Bytes}
    (hr : Sendable r q.length) (hq : 32 ≤ q.length) (hf : 8 ≤ first.length)
    (hb : encodeWrite r = some b) :
    decodeWrite now first q (b ++ more) = .ok (arrives now r, more) := by
  obtain ⟨hk, hp, ho, hx⟩ := hr
  have hkey := cstr_plain hk.word
  cases hkind : r.cmd.kind with
  | store =>
    simp only [encodeWrite, hkind] at hb
    split at hb
    case isFalse => exact absurd hb (by simp)
    case isTrue hsz =>
      obtain ⟨hs1, hs2⟩ := hsz
      have hb := Option.some.inj hb
      have hmax : r.entry.size.toNat + 2 ≤ intMax := by omega
      let sent : Bool := decide (r.entry.version > 0 ∨ r.cmd = .cas)
      let tail : Bytes := chSpace :: r.entry.key ++ (chSpace :: decimal r.entry.flag.toNat ++
        (chSpace :: decimalInt r.entry.expire.toInt ++ (chSpace :: decimal r.entry.size.toNat ++
        ((if sent then chSpace :: decimal r.entry.version.toNat else []) ++
          optionWords r.entry.option))))
      have e1 : b ++ more = proxyIdent r.path ++ r.cmd.ident ++ tail ++ crlf ++
          (r.entry.data.take r.entry.size.toNat ++ crlf ++ more) := by
        rw [← hb]
        simp [storeLine, tail, sent, hkey]
      have hnl : ∀ c ∈ tail, c ≠ chNl := by
        refine mem_app (mem_space (plainKey_nl hk)) (mem_app (mem_space (decimal_ne_nl _))
          (mem_app (mem_space (decimalInt_ne_nl _)) (mem_app (mem_space (decimal_ne_nl _))
          (mem_app ?_ (optionWords_ne_nl _)))))
        split
        · exact mem_space (decimal_ne_nl _)
        · simp
      have he : Ends (tail ++ [chNl]) := ends_space _
      rw [e1, decodeWrite_line hp hf hnl he]
      have hparse := entryParse_store (now := now) (t := if r.cmd = .cas then .cas else .set)
        (q := q) (e := r.entry) (sent := sent) (by split <;> simp) hk hx
        (by simp only [maxDataSize]; simp only [intMax] at hmax; omega) ho hq
        (by
          intro h
          have : r.cmd = .cas := by
            apply Decidable.byContradiction
            intro hc
            rw [if_neg hc] at h
            exact absurd h (by decide)
          simp [sent, this])
        (by
          intro h
          simp only [sent, decide_eq_false_iff_not, not_or] at h
          exact not_zero_of_pos h.1)
      have e2 : tail ++ [chNl] = chSpace :: r.entry.key ++ (chSpace :: decimal r.entry.flag.toNat ++
        (chSpace :: decimalInt r.entry.expire.toInt ++ (chSpace :: decimal r.entry.size.toNat ++
        ((if sent then chSpace :: decimal r.entry.version.toNat else []) ++
          (optionWords r.entry.option ++ [chNl]))))) := by simp [tail]
      have hlen : (r.entry.data.take r.entry.size.toNat).length = r.entry.size.toNat := by
        simp; omega
      have hread : readSize (r.entry.size.toNat + 2)
          (r.entry.data.take r.entry.size.toNat ++ crlf ++ more) =
          .ok (r.entry.data.take r.entry.size.toNat ++ crlf, more) :=
        readSize_ok hmax (by simp [crlf]; omega)
      simp only [parseParams, hkind, e2, hparse, hread]
      rw [List.take_append_of_le_length (by omega), List.take_of_length_le (l := List.take _ _) (by omega)]
      have : arrives now r = { r with
          entry := { r.entry with expire := realtime now r.entry.expire
                                  data := r.entry.data.take r.entry.size.toNat }
          value := 0 } := by
        unfold arrives
        revert hkind
        cases r.cmd <;> simp [WriteCmd.kind]
      rw [this]
  | count =>
    simp only [encodeWrite, hkind] at hb
    split at hb
    case isFalse => exact absurd hb (by simp)
    case isTrue hsz =>
      have hb := Option.some.inj hb
      let tail : Bytes := chSpace :: r.entry.key ++ (chSpace :: decimal r.value.toNat ++
        optionWords r.entry.option)
      have e1 : b ++ more = proxyIdent r.path ++ r.cmd.ident ++ tail ++ crlf ++ more := by
        rw [← hb]
        simp [countLine, tail, hkey]
      have hnl : ∀ c ∈ tail, c ≠ chNl :=
        mem_app (mem_space (plainKey_nl hk)) (mem_app (mem_space (decimal_ne_nl _))
          (optionWords_ne_nl _))
      have he : Ends (tail ++ [chNl]) := ends_space _
      rw [e1, decodeWrite_line hp hf hnl he]
      have e2 : tail ++ [chNl] = chSpace :: r.entry.key ++ (chSpace :: decimal r.value.toNat ++
        (optionWords r.entry.option ++ [chNl])) := by simp [tail]
      simp only [parseParams, hkind, e2, parseCount_ok hk ho hq]
      have : arrives now r = { r with
          entry := { key := r.entry.key, option := r.entry.option } } := by
        unfold arrives
        revert hkind
        cases r.cmd <;> simp [WriteCmd.kind]
      rw [this]
  | delete =>
    have hcmd : r.cmd = .delete := by
      revert hkind
      cases r.cmd <;> simp [WriteCmd.kind]
    simp only [encodeWrite, hkind] at hb
    split at hb
    case isFalse => exact absurd hb (by simp)
    case isTrue hsz =>
      have hb := Option.some.inj hb
      let tail : Bytes := chSpace :: r.entry.key ++
        (chSpace :: decimalInt r.entry.expire.toInt ++
        ((if r.entry.version > 0 then chSpace :: decimal r.entry.version.toNat else []) ++
          optionWords r.entry.option))
      have e1 : b ++ more = proxyIdent r.path ++ r.cmd.ident ++ tail ++ crlf ++ more := by
        rw [← hb, hcmd]
        simp [deleteLine, tail, hkey]
      have hnl : ∀ c ∈ tail, c ≠ chNl := by
        refine mem_app (mem_space (plainKey_nl hk))
          (mem_app (mem_space (decimalInt_ne_nl _)) (mem_app ?_ (optionWords_ne_nl _)))
        split
        · exact mem_space (decimal_ne_nl _)
        · simp
      have he : Ends (tail ++ [chNl]) := ends_space _
      rw [e1, decodeWrite_line hp hf hnl he]
      have e2 : tail ++ [chNl] = chSpace :: r.entry.key ++
        (chSpace :: decimalInt r.entry.expire.toInt ++
        ((if r.entry.version > 0 then chSpace :: decimal r.entry.version.toNat else []) ++
          (optionWords r.entry.option ++ [chNl]))) := by simp [tail]
      simp only [parseParams, hkind, e2, entryParse_delete hk hx ho hq]
      simp only [arrives, hcmd]
  | touch =>
    simp only [encodeWrite, hkind] at hb
    split at hb
    case isFalse => exact absurd hb (by simp)
    case isTrue hsz =>
      have hb := Option.some.inj hb
      let tail : Bytes := chSpace :: r.entry.key ++
        (chSpace :: decimalInt r.entry.expire.toInt ++ optionWords (r.entry.option &&& optNoreply))
      have e1 : b ++ more = proxyIdent r.path ++ r.cmd.ident ++ tail ++ crlf ++ more := by
        rw [← hb, touchLine, noreply_words]
        simp [tail, hkey]
      have hnl : ∀ c ∈ tail, c ≠ chNl :=
        mem_app (mem_space (plainKey_nl hk))
          (mem_app (mem_space (decimalInt_ne_nl _)) (optionWords_ne_nl _))
      have he : Ends (tail ++ [chNl]) := ends_space _
      rw [e1, decodeWrite_line hp hf hnl he]
      have e2 : tail ++ [chNl] = chSpace :: r.entry.key ++
        (chSpace :: decimalInt r.entry.expire.toInt ++
          (optionWords (r.entry.option &&& optNoreply) ++ [chNl])) := by simp [tail]
      have hopt : r.entry.option &&& optNoreply = 0 ∨ r.entry.option &&& optNoreply = optNoreply := by
        have h : (r.entry.option &&& optNoreply).toNat ≤ 1 := by
          rw [UInt32.toNat_and]; exact Nat.and_le_right
        have h2 : (r.entry.option &&& optNoreply).toNat = 0 ∨
          (r.entry.option &&& optNoreply).toNat = 1 := by omega
        rcases h2 with h2 | h2
        · exact .inl (UInt32.toNat_inj.1 (by simpa using h2))
        · exact .inr (UInt32.toNat_inj.1 (h2.trans rfl))
      simp only [parseParams, hkind, e2, entryParse_touch hk hx hq, if_pos hopt]
      have : arrives now r = { r with
          entry := { key := r.entry.key, expire := realtime now r.entry.expire,
                     option := r.entry.option &&& optNoreply }
          value := 0 } := by
        unfold arrives
        revert hkind
        cases r.cmd <;> simp [WriteCmd.kind]
      rw [this]

/-! ### Answers -/

/-- The line of an answer behind the word VALUE. -/
theorem entryParse_value {now : Int64} {t : ResponseType} {q : Bytes} {e : Entry}
    (hk : PlainKey e.key q.length) (hs : e.size.toNat ≤ maxDataSize) (hq : 32 ≤ q.length) :
    entryParse now .get (chSpace :: e.key ++ (chSpace :: decimal e.flag.toNat ++
      (chSpace :: decimal e.size.toNat ++
      ((if t = .gets ∨ t = .dump then chSpace :: decimal e.version.toNat else []) ++
        ((if t = .dump then chSpace :: decimalInt e.expire.toInt else []) ++ [chNl]))))) q
      { key := [] } =
      .ok { key := e.key, flag := e.flag, size := e.size,
            version := if t = .gets ∨ t = .dump then e.version else 0,
            expire := if t = .dump then realtime now e.expire else 0 } := by
  have hends2 : Ends ((if t = .dump then chSpace :: decimalInt e.expire.toInt else []) ++ [chNl]) := by
    split
    · exact ends_space _
    · exact ends_nl _
  have hends : Ends ((if t = .gets ∨ t = .dump then chSpace :: decimal e.version.toNat else []) ++
        ((if t = .dump then chSpace :: decimalInt e.expire.toInt else []) ++ [chNl])) := by
    split
    · exact ends_space _
    · exact hends2
  obtain ⟨q1, a1, b1⟩ := parseKey_ok (e := { key := [] }) hk
    (ends_space' (decimal e.flag.toNat) (chSpace :: decimal e.size.toNat ++
      ((if t = .gets ∨ t = .dump then chSpace :: decimal e.version.toNat else []) ++
        ((if t = .dump then chSpace :: decimalInt e.expire.toInt else []) ++ [chNl]))))
  obtain ⟨q2, a2, b2⟩ := parseFlag_ok (t := .get) (f := e.flag) (q := q1) (e := { key := e.key })
    (by decide)
    (ends_space' (decimal e.size.toNat)
      ((if t = .gets ∨ t = .dump then chSpace :: decimal e.version.toNat else []) ++
        ((if t = .dump then chSpace :: decimalInt e.expire.toInt else []) ++ [chNl]))) (by omega)
  obtain ⟨q4, a4, b4⟩ := parseSize_ok (t := .get) (n := e.size) (q := q2)
    (e := { key := e.key, flag := e.flag }) (by decide) hs hends (by omega)
  simp only [entryParse]
  rw [Except.bind_ok' a1]
  dsimp only
  rw [Except.bind_ok' a2, Except.bind_ok' parseExpire_skip]
  dsimp only
  rw [Except.bind_ok' a4]
  dsimp only
  cases t with
  | get =>
    obtain ⟨q5, a5, b5⟩ := parseVersion_none (t := .get) (r := []) (q := q4) (c := chNl)
      (e := { key := e.key, flag := e.flag, size := e.size }) 0 (by decide) (by decide) (by decide)
      (by omega)
    obtain ⟨q6, a6, b6⟩ := parseExpireGet_none (now := now) (q := q5)
      (e := { key := e.key, flag := e.flag, size := e.size }) (by omega)
    have a5' : parseVersion .get ([chNl], q4, { key := e.key, flag := e.flag, size := e.size }) =
      .ok ([chNl], q5, { key := e.key, flag := e.flag, size := e.size }) := a5
    simp only [reduceCtorEq, or_self, if_false, List.nil_append]
    rw [Except.bind_ok' a5', Except.bind_ok' a6]
    rfl
  | gets =>
    obtain ⟨q5, a5, b5⟩ := parseVersion_ok (t := .get) (n := e.version) (q := q4) (r := [chNl])
      (e := { key := e.key, flag := e.flag, size := e.size }) (ends_nl _) (by omega)
    obtain ⟨q6, a6, b6⟩ := parseExpireGet_none (now := now) (q := q5)
      (e := { key := e.key, flag := e.flag, size := e.size, version := e.version }) (by omega)
    simp only [reduceCtorEq, or_false, if_true, if_false, List.nil_append]
    rw [Except.bind_ok' a5, Except.bind_ok' a6]
    rfl
  | dump =>
    obtain ⟨q5, a5, b5⟩ := parseVersion_ok (t := .get) (n := e.version) (q := q4)
      (e := { key := e.key, flag := e.flag, size := e.size })
      (ends_space' (decimalInt e.expire.toInt) [chNl]) (by omega)
    obtain ⟨q6, a6, b6⟩ := parseExpireGet_ok (now := now) (x := e.expire) (q := q5)
      (e := { key := e.key, flag := e.flag, size := e.size, version := e.version })
      (ends_nl []) (by omega)
    simp only [or_true, if_true]
    rw [Except.bind_ok' a5, Except.bind_ok' a6]
    rfl

theorem readAnswer_value {now : Int64} {t : ResponseType} {q q' : Bytes} {e : Entry}
    {b more : Bytes} (hk : PlainKey e.key q.length) (hq : 32 ≤ q.length) (hqq : q'.length = q.length)
    (hb : response t e = some b) :
    readAnswer now q' q (b ++ more) = .ok (.value
      { key := e.key, flag := e.flag, size := e.size, data := e.data.take e.size.toNat,
        version := if t = .gets ∨ t = .dump then e.version else 0,
        expire := if t = .dump then realtime now e.expire else 0 } more) := by
  simp only [response] at hb
  split at hb
  case isFalse => exact absurd hb (by simp)
  case isTrue hsz =>
  obtain ⟨hs1, hs2⟩ := hsz
  have hb := Option.some.inj hb
  have hkey := cstr_plain hk.word
  have hmax : e.size.toNat + 2 ≤ intMax := by omega
  let tail : Bytes := chSpace :: e.key ++ (chSpace :: decimal e.flag.toNat ++
      (chSpace :: decimal e.size.toNat ++
      ((if t = .gets ∨ t = .dump then chSpace :: decimal e.version.toNat else []) ++
        ((if t = .dump then chSpace :: decimalInt e.expire.toInt else [])))))
  have e1 : b ++ more = (strValue ++ tail) ++ crlf ++
      (e.data.take e.size.toNat ++ crlf ++ more) := by
    rw [← hb]
    simp [responseLine, tail, hkey]
  have hnl : ∀ c ∈ strValue ++ tail, c ≠ chNl := by
    refine mem_app (by decide) (mem_app (mem_space (plainKey_nl hk))
      (mem_app (mem_space (decimal_ne_nl _)) (mem_app (mem_space (decimal_ne_nl _))
        (mem_app ?_ ?_))))
    · split
      · exact mem_space (decimal_ne_nl _)
      · simp
    · split
      · exact mem_space (decimalInt_ne_nl _)
      · simp
  obtain ⟨q1, a1, b1, _⟩ := scanWord_tok (w := strValue) (c := chSpace) (q := q')
    (rest := (tail ++ [chNl]).drop 1) 0 (by decide) (by decide) (by
      have : strValue.length = 5 := rfl
      omega) (by decide)
  have e3 : tail ++ [chNl] = chSpace :: (tail ++ [chNl]).drop 1 := by simp [tail]
  have a1' : scanWord (strValue ++ tail ++ [chNl]) q' = .ok (tail ++ [chNl], q1) := by
    rw [List.append_assoc, e3]
    simpa using a1
  have hne : strValue ++ tail ++ [chNl] ≠ strEnd ++ [chNl] := by
    intro h
    have := congrArg (fun l => l.head?) h
    simp [strValue, strEnd] at this
  have e2 : tail ++ [chNl] = chSpace :: e.key ++ (chSpace :: decimal e.flag.toNat ++
      (chSpace :: decimal e.size.toNat ++
      ((if t = .gets ∨ t = .dump then chSpace :: decimal e.version.toNat else []) ++
        ((if t = .dump then chSpace :: decimalInt e.expire.toInt else []) ++ [chNl])))) := by
    simp [tail]
  have hparse := entryParse_value (now := now) (t := t) hk
    (by simp only [maxDataSize]; simp only [intMax] at hmax; omega) hq
  rw [← e2] at hparse
  have hread : readSize (e.size.toNat + 2)
      (e.data.take e.size.toNat ++ crlf ++ more) =
      .ok (e.data.take e.size.toNat ++ crlf, more) :=
    readSize_ok hmax (by simp [crlf]; omega)
  rw [e1]
  simp only [readAnswer, readLine_crlf hnl, if_neg hne, a1', b1, ne_eq, not_true_eq_false,
    if_false, hparse, hread]
  rw [List.take_append_of_le_length (by simp; omega),
    List.take_of_length_le (l := List.take _ _) (by rw [List.length_take]; omega)]

theorem readAnswer_end {now : Int64} {q q' more : Bytes} :
    readAnswer now q' q (strEnd ++ crlf ++ more) = .ok (.fin more) := by
  simp only [readAnswer, readLine_crlf (show ∀ c ∈ strEnd, c ≠ chNl by decide), if_true]

end Flare
