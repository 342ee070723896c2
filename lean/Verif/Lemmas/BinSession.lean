import Verif.Spec.BinSession
import Verif.Props.Binary
import Verif.Lemmas.Session

/-! Lemmas about sessions of the binary protocol. -/
set_option linter.unusedSimpArgs false
namespace Flare

theorem sendBin_header (m : BinMsg) (hf : m.Fits) :
    sendBin (m.header 0x81) (m.extras ++ m.key ++ m.value) = .ok (m.bytes 0x81) := by
  have g4 := (m.header_get 0x81 hf).2.2.2.1
  have h3 := hf.2.2
  have hm : intMax = 2147483647 := rfl
  have hl : (m.extras ++ m.key ++ m.value).length = m.extras.length + m.key.length + m.value.length := by
    simp only [List.length_append]
  simp only [sendBin, g4]
  rw [if_neg (by omega), BinMsg.bytes_eq, List.take_of_length_le (by omega)]

/-- The header of an answer without extras. -/
theorem plainHeader (op : UInt8) (st : UInt16) (k v : Bytes) (hk : k.length < 65536)
    (hv : k.length + v.length < 2147483648) :
    hset (hset (hset (hnew 0x81 op.toNat) .third st.toNat) .keyLength k.length) .totalBodyLength
      (k.length + v.length) =
    BinMsg.header 0x81 { opcode := op, extras := [], key := k, value := v, vbucket := st } := by
  have h1 : hnew 0x81 op.toNat = [0x81, op] ++ List.replicate 22 0 := C38_new 0x81 op
  rw [h1]
  have hs := st.toNat_lt
  simp only [hset, HField.off, HField.width]
  rw [Nat.mod_eq_of_lt (a := st.toNat) (by omega), Nat.mod_eq_of_lt (a := k.length) (by omega),
    Nat.mod_eq_of_lt (a := k.length + v.length) (by omega)]
  simp only [BinMsg.header, List.length_nil, Nat.zero_add]
  rfl

theorem keyLength_zero (op : UInt8) (st : UInt16) :
    hset (hset (hnew 0x81 op.toNat) .third st.toNat) .keyLength 0 = hset (hnew 0x81 op.toNat) .third st.toNat := by
  have h1 : hnew 0x81 op.toNat = [0x81, op] ++ List.replicate 22 0 := C38_new 0x81 op
  rw [h1]
  rfl

theorem third_zero (op : UInt8) :
    hset (hnew 0x81 op.toNat) .third 0 = hnew 0x81 op.toNat := by
  have h1 : hnew 0x81 op.toNat = [0x81, op] ++ List.replicate 22 0 := C38_new 0x81 op
  rw [h1]
  rfl

theorem plain_fits (op : UInt8) (st : UInt16) (v : Bytes) (hv : v.length < 2147483648) :
    (BinMsg.plain op st v).Fits := by
  refine ⟨?_, ?_, ?_⟩ <;> simp only [BinMsg.plain, List.length_nil] <;> omega

theorem sendPlain (op : UInt8) (st : UInt16) (v : Bytes) (hv : v.length < 2147483648) :
    sendBin (hset (hset (hnew 0x81 op.toNat) .third st.toNat) .totalBodyLength v.length) v =
      .ok ((BinMsg.plain op st v).bytes 0x81) := by
  have := plainHeader op st [] v (by decide) (by simpa using hv)
  simp only [List.length_nil, Nat.zero_add, keyLength_zero] at this
  rw [this]
  exact sendBin_header _ (plain_fits op st v hv)

theorem takeWhile_all {p : UInt8 → Bool} {l : Bytes} (h : ∀ a ∈ l, p a = true) : l.takeWhile p = l := by
  induction l with
  | nil => rfl
  | cons a l ih => rw [List.takeWhile_cons_of_pos (h a (by simp)), ih (fun b hb => h b (by simp [hb]))]

theorem cstr_text {m : Bytes} (h : BinText m) : cstr m = m := by
  apply takeWhile_all
  intro a ha
  simp only [ne_eq, decide_eq_true_eq]
  rintro rfl
  exact h.2 ha

theorem binResult_eq (op : UInt8) (r : OpResult) (msg : Bytes) (h : BinText msg) :
    binResult op.toNat r msg = .ok ((r.bin op msg).bytes 0x81) ∧ (r.bin op msg).Fits := by
  have ok0 : binResult op.toNat .ok msg = .ok ((BinMsg.plain op 0 msg).bytes 0x81) := by
    have : binResult op.toNat .ok msg =
        sendBin (hset (hset (hnew 0x81 op.toNat) .third (0 : UInt16).toNat) .totalBodyLength msg.length) msg := by
      simp only [binResult, binStatus, true_or, if_true, cstr_text h]
      by_cases he : msg = []
      · subst he; rfl
      · rw [if_neg he]; rfl
    rw [this, sendPlain op 0 msg h.1]
  have er : binResult op.toNat .error msg =
      .ok ((BinMsg.plain op 0x84 (if msg = [] then ascii "Internal error" else msg)).bytes 0x81) := by
    have hl : (if msg = [] then ascii "Internal error" else msg).length < 2147483648 := by
      split
      · decide
      · exact h.1
    have : binResult op.toNat .error msg =
        sendBin (hset (hset (hnew 0x81 op.toNat) .third (0x84 : UInt16).toNat) .totalBodyLength
          (if msg = [] then ascii "Internal error" else msg).length)
          (if msg = [] then ascii "Internal error" else msg) := by
      simp only [binResult, binStatus, or_true, if_true, cstr_text h]
      rfl
    rw [this, sendPlain op 0x84 _ hl]
  have oth (r : OpResult) (st : UInt16) (t : Bytes) (h1 : binStatus r = st.toNat) (h2 : st ≠ 0) (h3 : st ≠ 0x84)
      (h4 : binStatusText st.toNat = t) (h5 : t ≠ []) (h6 : t.length < 2147483648) :
      binResult op.toNat r msg = .ok ((BinMsg.plain op st t).bytes 0x81) := by
    have n1 : ¬(st.toNat = 0 ∨ st.toNat = 0x84) := by
      rintro (h | h)
      · exact h2 (UInt16.toNat_inj.1 h)
      · exact h3 (UInt16.toNat_inj.1 h)
    have : binResult op.toNat r msg =
        sendBin (hset (hset (hnew 0x81 op.toNat) .third st.toNat) .totalBodyLength t.length) t := by
      simp only [binResult, h1, if_neg n1, h4, if_neg h5]
    rw [this, sendPlain op st t h6]
  have fe : (BinMsg.plain op 0x84 (if msg = [] then ascii "Internal error" else msg)).Fits := by
    apply plain_fits
    split
    · decide
    · exact h.1
  cases r <;> simp only [OpResult.bin]
  case notStored => exact ⟨oth _ 5 _ rfl (by decide) (by decide) rfl (by decide) (by decide), plain_fits _ _ _ (by decide)⟩
  case exists_ => exact ⟨oth _ 2 _ rfl (by decide) (by decide) rfl (by decide) (by decide), plain_fits _ _ _ (by decide)⟩
  case notFound => exact ⟨oth _ 1 _ rfl (by decide) (by decide) rfl (by decide) (by decide), plain_fits _ _ _ (by decide)⟩
  case error => exact ⟨er, fe⟩
  case clientError => exact ⟨er, fe⟩
  case serverError => exact ⟨er, fe⟩
  all_goals exact ⟨ok0, plain_fits _ _ _ h.1⟩

theorem entry_bin_fits (op : UInt8) (e : Entry) (h : BinValue e) : (e.bin op).Fits := by
  obtain ⟨h1, h2, h3⟩ := h
  have : (if op = 0x0c ∨ op = 0x0d then e.key else []).length ≤ e.key.length := by split <;> simp
  refine ⟨?_, ?_, ?_⟩ <;> simp only [Entry.bin, beBytes_length] <;> omega

theorem binTouched_eq (op : UInt8) (e : Entry) (h : BinValue e) (ho : ¬(op = 0x0c ∨ op = 0x0d)) :
    binTouched op.toNat e = .ok ((e.bin op).bytes 0x81) := by
  have := C38_get_answer op e h.1 h.2.1 h.2.2
  have hop : ¬(op.toNat = 0x0c ∨ op.toNat = 0x0d) := by
    rintro (h | h)
    · exact ho (.inl (UInt8.toNat_inj.1 h))
    · exact ho (.inr (UInt8.toNat_inj.1 h))
  rw [Entry.bin, ← this]
  simp only [binTouched, sendBinEntry, hop, decide_false]
  rfl

theorem binNumber_eq (op : UInt8) (e : Entry) (h : isUnsignedString (e.data.take e.size.toNat) = true)
    (hn : decValue (e.data.take e.size.toNat) < 2 ^ 64) :
    binNumber op.toNat e =
      .ok ((BinMsg.plain op 0 (beBytes 8 (decValue (e.data.take e.size.toNat)))).bytes 0x81) := by
  have hd : (e.data.take e.size.toNat).takeWhile isDigit = e.data.take e.size.toNat := by
    apply takeWhile_all
    simp only [isUnsignedString, Bool.and_eq_true, List.all_eq_true] at h
    exact h.2
  simp only [binNumber, hd, if_pos hn]
  rw [← sendPlain op 0 (beBytes 8 (decValue (e.data.take e.size.toNat))) (by rw [beBytes_length]; omega), beBytes_length,
    show (0 : UInt16).toNat = 0 from rfl, third_zero]

theorem beBytes_one (b : UInt8) : beBytes 1 b.toNat = [b] := by
  have := b.toNat_lt
  simp [beBytes, leBytes]

/-- The client reads an answer back as it was meant. -/
theorem readBin_bytes (m : BinMsg) (hf : m.Fits) (more : Bytes) :
    readBin (m.bytes 0x81 ++ more) = some (m, more) := by
  obtain ⟨g1, g2, g3, g4, g5, g6⟩ := m.header_get 0x81 hf
  have hl := m.header_length 0x81
  have hs : m.bytes 0x81 ++ more = m.header 0x81 ++ (m.extras ++ m.key ++ m.value ++ more) := by
    rw [BinMsg.bytes_eq]; simp only [List.append_assoc]
  have fld (f : HField) : beNat (((m.bytes 0x81 ++ more).drop f.off).take f.width) = hget (m.header 0x81) f := by
    have hin := f.inside
    simp only [hSize] at hin
    rw [hs, List.drop_append_of_le_length (by omega), List.take_append_of_le_length (by rw [List.length_drop]; omega)]
    rfl
  have f1 := (fld .keyLength).trans g2
  have f2 := (fld .extrasLength).trans g3
  have f3 := (fld .totalBodyLength).trans g4
  have f4 := (fld .opaque).trans g5
  have f5 := (fld .cas).trans g6
  have f6 : beNat (((m.bytes 0x81 ++ more).drop 6).take 2) = m.vbucket.toNat :=
    (fld .third).trans ((show hget (m.header 0x81) .third = beNat (beBytes 2 m.vbucket.toNat) from rfl).trans
      (beNat_beBytes (by have := m.vbucket.toNat_lt; omega)))
  simp only [HField.off, HField.width] at f1 f2 f3 f4 f5
  have hh : (m.bytes 0x81 ++ more).head? = some 0x81 := rfl
  have hlen : (m.bytes 0x81 ++ more).length =
      24 + (m.extras.length + m.key.length + m.value.length) + more.length := by
    rw [hs]; simp only [List.length_append, hl]; omega
  have hop : ((m.bytes 0x81 ++ more).drop 1).headD 0 = m.opcode := rfl
  have hbody : ((m.bytes 0x81 ++ more).drop 24).take (m.extras.length + m.key.length + m.value.length) =
      m.extras ++ (m.key ++ m.value) := by
    rw [hs, List.drop_left' hl, List.take_left' (by simp only [List.length_append])]
    simp only [List.append_assoc]
  have hrest : (m.bytes 0x81 ++ more).drop (24 + (m.extras.length + m.key.length + m.value.length)) = more := by
    rw [List.drop_left' (by rw [BinMsg.bytes_eq]; simp only [List.length_append, hl])]
  simp only [readBin, f1, f2, f3, f4, f5, f6, hop, hbody, hrest]
  rw [if_neg (by rw [hh, hlen]; simp; omega), if_neg (by rw [hlen]; omega)]
  rw [List.take_left' rfl, List.drop_left' rfl, List.take_left' rfl, ← List.append_assoc,
    List.drop_left' (by simp only [List.length_append])]
  simp only [UInt16.ofNat_toNat, UInt32.ofNat_toNat, UInt64.ofNat_toNat]

/-- A request of the protocol is read as it was sent. -/
theorem takeBin_encode (now : Int64) (m : BinMsg) (hf : m.Fits) (ho : m.opcode ≠ 0x10) (more : Bytes) :
    takeBin now (m.encode ++ more) =
      match m.taken now with
      | some r => .req m.opcode.toNat r more
      | none => .bad m.opcode.toNat more := by
  obtain ⟨g1, g2, g3, g4, -, -⟩ := m.header_get 0x80 hf
  have hl := m.header_length 0x80
  have hm : intMax = 2147483647 := rfl
  have h3 := hf.2.2
  have hs : m.encode ++ more = m.header 0x80 ++ (m.extras ++ m.key ++ m.value ++ more) := by
    rw [BinMsg.encode, BinMsg.bytes_eq]; simp only [List.append_assoc]
  have hh : (m.encode ++ more).head? = some 0x80 := rfl
  have ht : (m.encode ++ more).take 24 = m.header 0x80 := by rw [hs, List.take_left' hl]
  have ht' : (m.bytes 0x80).take 24 = m.header 0x80 := by
    rw [BinMsg.bytes_eq, List.take_left' hl]
  have hlen : (m.encode ++ more).length =
      24 + (m.extras.length + m.key.length + m.value.length) + more.length := by
    rw [hs]; simp only [List.length_append, hl]; omega
  have hbody : ((m.encode ++ more).drop 24).take (m.extras.length + m.key.length + m.value.length) =
      m.extras ++ m.key ++ m.value := by
    rw [hs, List.drop_left' hl, List.take_left' (by simp only [List.length_append])]
  have hrest : (m.encode ++ more).drop (24 + (m.extras.length + m.key.length + m.value.length)) = more := by
    rw [hs, ← List.append_assoc, List.drop_left' (by simp only [List.length_append, hl])]
  have hb : bodySize (m.extras.length + m.key.length + m.value.length) =
      m.extras.length + m.key.length + m.value.length := by rw [bodySize, if_pos (by omega)]
  have hop : m.opcode.toNat ≠ 0x10 := fun h => ho (UInt8.toNat_inj.1 h)
  have hub : cutRequest now (m.header 0x80) (m.extras ++ m.key ++ m.value) ≠ .error .ub := by
    intro h
    have := (C39_inside_partial now (m.header 0x80) (m.extras ++ m.key ++ m.value) (by
      rw [g4, hb]; simp only [List.length_append])).1 h
    rw [g4, g3, g2] at this
    omega
  simp only [takeBin, hh, hSize, ht, g4, g1, hb, hbody, hrest]
  rw [if_neg (by decide), if_neg (by omega), if_neg hop, if_neg (by omega)]
  simp only [BinMsg.taken, ht']
  cases hc : cutRequest now (m.header 0x80) (m.extras ++ m.key ++ m.value) with
  | ok b => rfl
  | error f =>
    cases f with
    | ub => exact absurd hc hub
    | err => rfl

/-- What is refused is an operation with a code of its own. -/
theorem taken_none (now : Int64) (m : BinMsg) (hf : m.Fits) (ho : m.opcode ≠ 0x10) (h : m.taken now = none) :
    answerCode m.opcode.toNat = m.opcode.toNat := by
  have hne : binOpOf m.opcode.toNat ≠ .other := by
    intro hx
    have g1 := (m.header_get 0x80 hf).1
    have ht' : (m.bytes 0x80).take 24 = m.header 0x80 := by
      rw [BinMsg.bytes_eq, List.take_left' (m.header_length 0x80)]
    simp only [BinMsg.taken, ht', cutRequest, g1, hx, parseBin] at h
    cases h
  have : ∀ n < 256, n ≠ 0x10 → binOpOf n ≠ .other → answerCode n = n := by
    decide +kernel
  exact this _ m.opcode.toNat_lt (fun h => ho (UInt8.toNat_inj.1 h)) hne

theorem binGot_eq (op : UInt8) (k : Bytes) (a : ReadAt) (h1 : (slotAt k a).e.key = k) (h2 : k.length < 65536)
    (h3 : ∀ e, a.found = some e → BinValue e) (k' : Bytes) :
    binGot op.toNat k a = .ok ((BReq.reply op (.get k) (.got [(k', a)])).bytes 0x81) ∧
      (BReq.reply op (.get k) (.got [(k', a)])).Fits := by
  have hop : (op.toNat = 0x0c ∨ op.toNat = 0x0d) ↔ (op = 0x0c ∨ op = 0x0d) := by
    constructor
    · rintro (h | h)
      · exact .inl (UInt8.toNat_inj.1 h)
      · exact .inr (UInt8.toNat_inj.1 h)
    · rintro (h | h) <;> subst h <;> decide
  have hf : a.found = if (slotAt k a).avail then some (slotAt k a).e else none := by
    cases a with
    | here o => simp only [slotAt, ownSlot, ReadAt.found, decide_eq_true_eq]
    | asked g => rfl
    | refused => rfl
  by_cases ha : (slotAt k a).avail
  · rw [if_pos ha] at hf
    have hv := h3 _ hf
    simp only [binGot, if_pos ha, BReq.reply, hf]
    exact ⟨C38_get_answer op _ hv.1 hv.2.1 hv.2.2, entry_bin_fits op _ hv⟩
  · rw [if_neg ha] at hf
    simp only [binGot, if_neg ha, BReq.reply, hf, h1, hop]
    have ht : (ascii "Not found").length = 9 := rfl
    have fit : ∀ k'' : Bytes, k''.length < 65536 → BinMsg.Fits
        { opcode := op, extras := [], key := k'', value := ascii "Not found", vbucket := 1 } := by
      intro k'' hk
      refine ⟨?_, ?_, ?_⟩ <;> simp only [List.length_nil, ht] <;> omega
    by_cases hk : op = 0x0c ∨ op = 0x0d
    · simp only [if_pos hk]
      refine ⟨?_, fit k h2⟩
      have := plainHeader op 1 k (binStatusText 1) h2 (by
        have : (binStatusText 1).length = 9 := rfl
        omega)
      rw [show (1 : UInt16).toNat = 1 from rfl] at this
      rw [this]
      have := sendBin_header _ (fit k h2)
      exact this
    · simp only [if_neg hk]
      exact ⟨sendPlain op 1 (binStatusText 1) (by decide), fit [] (by decide)⟩

theorem text_ascii {m : Bytes} (h : decide (m.length < 2147483648) && !m.contains 0 = true) : BinText m := by
  simp only [Bool.and_eq_true, decide_eq_true_eq, Bool.not_eq_true', List.contains_eq_mem,
    decide_eq_false_iff_not] at h
  exact h

theorem binSend_eq (op : UInt8) (cmd : WriteCmd) (r : OpResult) (msg : Bytes) (e : Option Entry)
    (hc : ¬(cmd.kind = .count ∧ r = .stored)) (hm : BinText msg) (ho : cmd = .gat → ¬(op = 0x0c ∨ op = 0x0d))
    (hv : cmd = .gat → r = .touched → ∀ x, e = some x → BinValue x) :
    binSend op.toNat cmd r msg e = .ok ((Done.bin op cmd (.sent true r msg e)).bytes 0x81) ∧
      (Done.bin op cmd (.sent true r msg e)).Fits := by
  by_cases hg : cmd = .gat ∧ r = .touched ∧ ∃ x, e = some x
  · obtain ⟨rfl, rfl, x, rfl⟩ := hg
    have := hv rfl rfl x rfl
    exact ⟨binTouched_eq op x this (ho rfl), entry_bin_fits op x this⟩
  · have h1 : binSend op.toNat cmd r msg e = binResult op.toNat r msg := by
      unfold binSend
      split
      · exact absurd ⟨rfl, rfl⟩ hc
      · exact absurd ⟨rfl, rfl⟩ hc
      · exact absurd ⟨rfl, rfl⟩ hc
      · exact absurd ⟨rfl, rfl⟩ hc
      · exact absurd ⟨rfl, rfl, _, rfl⟩ hg
      · rfl
    have h2 : Done.bin op cmd (.sent true r msg e) = r.bin op msg := by
      simp only [Done.bin]
      split
      · exact absurd ⟨rfl, rfl, _, rfl⟩ hg
      · rfl
    rw [h1, h2]
    exact binResult_eq op r msg hm

theorem binWriteAnswer_eq (op : UInt8) (cmd : WriteCmd) (d : Done) (hs : d.BSound cmd)
    (ho : cmd = .gat → ¬(op = 0x0c ∨ op = 0x0d)) :
    binWriteAnswer op.toNat cmd d = .ok ((d.bin op cmd).bytes 0x81) ∧ (d.bin op cmd).Fits := by
  have se (m : Bytes) (h : decide (m.length < 2147483648) && !m.contains 0 = true) (hne : m ≠ []) :
      binResult op.toNat .serverError m = .ok ((BinMsg.plain op 0x84 m).bytes 0x81) ∧
        (BinMsg.plain op 0x84 m).Fits := by
    have := binResult_eq op .serverError m (text_ascii h)
    simp only [OpResult.bin, if_neg hne] at this
    exact this
  cases d with
  | noQueue => exact se (ascii "proxy failure") (by decide) (by decide)
  | noPartition => exact se (ascii "no partition available") (by decide) (by decide)
  | sent ok r msg e =>
    cases ok with
    | false => exact se (ascii "proxy error") (by decide) (by decide)
    | true =>
      obtain ⟨h1, h2, h3⟩ := hs rfl
      simp only [binWriteAnswer, Bool.not_true, Bool.false_eq_true, if_false, if_neg h1]
      exact binSend_eq op cmd r msg e h1 h2 ho h3
  | own o =>
    obtain ⟨h1, h2⟩ := hs
    cases hrc : o.rc with
    | ub => exact absurd hrc h1
    | err =>
      simp only [binWriteAnswer, Done.bin, hrc]
      exact se (ascii "i/o error") (by decide) (by decide)
    | ok =>
      obtain ⟨r, hr, h3, h4⟩ := h2 hrc
      simp only [binWriteAnswer, Done.bin, hrc, hr]
      by_cases hc : cmd.kind = .count ∧ r = .stored
      · rw [if_pos hc]
        obtain ⟨n1, n2⟩ := h3 hc.1 hc.2
        have hb : binSend op.toNat cmd r.toOp [] (some o.e) = binNumber op.toNat o.e := by
          obtain ⟨hc1, rfl⟩ := hc
          generalize cmd = c at hc1
          cases c <;> first | rfl | (cases hc1; done)
        rw [hb]
        exact ⟨binNumber_eq op o.e n1 n2, plain_fits _ _ _ (by rw [beBytes_length]; omega)⟩
      · rw [if_neg hc]
        have hc' : ¬(cmd.kind = .count ∧ r.toOp = .stored) := by
          rintro ⟨a, b⟩
          exact hc ⟨a, by cases r <;> first | rfl | cases b⟩
        have := binSend_eq op cmd r.toOp [] (some o.e) hc' (text_ascii (by decide)) ho (by
          rintro hg ht x hx
          cases hx
          exact h4 hg (by cases r <;> first | rfl | cases ht))
        by_cases hg : cmd = .gat ∧ r = .touched
        · rw [if_pos hg]
          obtain ⟨rfl, rfl⟩ := hg
          exact this
        · rw [if_neg hg]
          have e1 : Done.bin op cmd (.sent true r.toOp [] (some o.e)) = r.toOp.bin op [] := by
            simp only [Done.bin]
            split
            · rename_i h _
              exact absurd ⟨rfl, by cases r <;> first | rfl | cases h⟩ hg
            · rfl
          rw [e1] at this
          exact this

theorem binReqOf_gat (n : Nat) (b : BinReq) (w : HeldOp) (h : binReqOf n b = .write w) (hg : w.req.cmd = .gat) :
    n = 0x1d ∨ n = 0x1e := by
  unfold binReqOf at h
  split at h
  · rename_i c hc
    have : c = .gat := by cases h; exact hg
    subst this
    unfold binWriteCmd at hc
    split at hc <;> first | (cases hc; done) | exact .inl rfl | exact .inr rfl
  · split at h <;> cases h

/-- The answer to what has been carried out. -/
theorem bAnswer_eq {σ : Type} (B : BBack σ) (st : σ) (op : UInt8) (b : BinReq)
    (hs : Did.BSound (binReqOf op.toNat b) (bPerform B st (binReqOf op.toNat b)).2) :
    bAnswer op.toNat (binReqOf op.toNat b) (bPerform B st (binReqOf op.toNat b)).2 =
        .ok (((binReqOf op.toNat b).reply op (bPerform B st (binReqOf op.toNat b)).2).bytes 0x81) ∧
      ((binReqOf op.toNat b).reply op (bPerform B st (binReqOf op.toNat b)).2).Fits := by
  have hgat := binReqOf_gat op.toNat b
  have hunk : binReqOf op.toNat b = .unknown → answerCode op.toNat = 0x0a := by
    intro h
    have h2 : binReqOf op.toNat { op := .other } = .unknown := by
      unfold binReqOf at h ⊢
      split at h
      · cases h
      · rename_i h0
        simp only [h0]
        split at h <;> first | (cases h; done) | rfl
    simp only [answerCode, h2]
  generalize binReqOf op.toNat b = r at *
  cases r with
  | write w =>
    refine binWriteAnswer_eq op w.req.cmd _ hs fun hg => ?_
    rcases hgat w rfl hg with h | h
    · rintro (rfl | rfl) <;> exact absurd h (by decide)
    · rintro (rfl | rfl) <;> exact absurd h (by decide)
  | get k =>
    obtain ⟨h1, h2, h3⟩ := hs
    exact binGot_eq op k _ h1 h2 h3 k
  | noop =>
    simp only [bPerform] at hs ⊢
    cases hd : (B.status st).2 with
    | none => exact binResult_eq op .ok [] (text_ascii (by decide))
    | some m =>
      rw [hd] at hs
      exact binResult_eq op .serverError m hs
  | version =>
    refine ⟨?_, plain_fits _ _ _ (by decide)⟩
    have := sendPlain op 0 (ascii "flare-1.3.4") (by decide)
    rw [show (0 : UInt16).toNat = 0 from rfl, third_zero] at this
    exact this
  | flush =>
    simp only [bPerform] at hs ⊢
    cases hd : (B.flush st).2 with
    | true => exact binResult_eq op .ok [] (text_ascii (by decide))
    | false => exact binResult_eq op .serverError (ascii "unknown error") (text_ascii (by decide))
  | quit => exact binResult_eq op .end_ [] (text_ascii (by decide))
  | unknown =>
    simp only [bAnswer, bPerform, hunk rfl]
    exact binResult_eq 0x0a .error [] (text_ascii (by decide))

end Flare
