import Verif.Lemmas.BinSession

/-! C72: a session of the binary protocol. -/
set_option linter.unusedSimpArgs false
namespace Flare

variable {σ : Type}

theorem readBins_flat (ms : List BinMsg) (hf : ∀ m ∈ ms, m.Fits) (more : Bytes) :
    readBins ms.length (ms.flatMap (BinMsg.bytes 0x81) ++ more) = some (ms, more) := by
  induction ms with
  | nil => rfl
  | cons m ms ih =>
    rw [List.flatMap_cons, List.append_assoc, List.length_cons, readBins, readBin_bytes m (hf m (by simp))]
    simp only [ih (fun x hx => hf x (by simp [hx])), Option.map_some]

theorem bPerformAll_length (B : BBack σ) (rs : List (Option BReq)) (st : σ) :
    (bPerformAll B st rs).2.length = rs.length := by
  induction rs generalizing st with
  | nil => rfl
  | cons r rs ih => cases r <;> simp [bPerformAll, ih]

/-- The requests a client may send: with lengths that fit, and neither `quit` nor `stat`. -/
def BinMsg.Usual (m : BinMsg) : Prop := m.Fits ∧ m.opcode ∉ ([0x07, 0x17, 0x10] : List UInt8)

theorem taken_some (now : Int64) (m : BinMsg) {r : BReq} (h : m.taken now = some r) :
    ∃ b, r = binReqOf m.opcode.toNat b := by
  simp only [BinMsg.taken] at h
  split at h
  · cases h; exact ⟨_, rfl⟩
  · cases h

theorem taken_quit (now : Int64) (m : BinMsg) (h : m.taken now = some .quit) :
    m.opcode = 0x07 ∨ m.opcode = 0x17 := by
  obtain ⟨b, hb⟩ := taken_some now m h
  have : m.opcode.toNat = 0x07 ∨ m.opcode.toNat = 0x17 := by
    generalize m.opcode.toNat = n at hb
    unfold binReqOf at hb
    split at hb
    · cases hb
    · split at hb <;> first | (cases hb; done) | exact .inl rfl | exact .inr rfl
  rcases this with h | h
  · exact .inl (UInt8.toNat_inj.1 h)
  · exact .inr (UInt8.toNat_inj.1 h)

/-- The requests before anything else on the connection. -/
theorem binSession_msgs (B : BBack σ) (now : Int64) (ms : List BinMsg) (hu : ∀ m ∈ ms, m.Usual) (st : σ)
    (hs : ∀ r d, some (r, d) ∈ (bPerformAll B st (ms.map (·.taken now))).2 → Did.BSound r d) (n : Nat)
    (more : Bytes) :
    binSession B now (ms.length + n) st (ms.flatMap BinMsg.encode ++ more) =
        (binSession B now n (bPerformAll B st (ms.map (·.taken now))).1 more).after
          ((bPerformAll B st (ms.map (·.taken now))).2.filterMap id)
          ((ms.zipWith BinMsg.reply (bPerformAll B st (ms.map (·.taken now))).2).flatMap (BinMsg.bytes 0x81)) ∧
      ∀ a ∈ ms.zipWith BinMsg.reply (bPerformAll B st (ms.map (·.taken now))).2, a.Fits := by
  induction ms generalizing st with
  | nil => exact ⟨by simp [bPerformAll, BTalk.after], by simp⟩
  | cons m ms ih =>
    have hm := hu m (by simp)
    have ho : m.opcode ≠ 0x10 := fun h => hm.2 (by rw [h]; decide)
    have hl : (m :: ms).length + n = (ms.length + n) + 1 := by simp only [List.length_cons]; omega
    rw [hl, List.flatMap_cons, List.append_assoc, List.map_cons, binSession,
      takeBin_encode now m hm.1 ho]
    cases ht : m.taken now with
    | none =>
      have ha := taken_none now m hm.1 ho ht
      have hb := binResult_eq m.opcode .error [] (text_ascii (by decide))
      rw [List.map_cons, ht] at hs
      simp only [bPerformAll, List.mem_cons, reduceCtorEq, false_or] at hs
      obtain ⟨i1, i2⟩ := ih (fun x hx => hu x (by simp [hx])) st hs
      have hfit : m.refused.Fits := hb.2
      simp only [ha, hb.1, i1, bPerformAll, List.zipWith_cons_cons, List.flatMap_cons, BinMsg.reply]
      refine ⟨by simp [BTalk.after, OpResult.bin, BinMsg.refused], ?_⟩
      intro a hx
      rw [List.mem_cons] at hx
      rcases hx with rfl | hx
      · exact hfit
      · exact i2 a hx
    | some r =>
      obtain ⟨b, hb⟩ := taken_some now m ht
      rw [List.map_cons, ht] at hs
      simp only [bPerformAll, List.mem_cons] at hs
      have h0 := hs r (bPerform B st r).2 (.inl rfl)
      have hq : r ≠ .quit := by
        rintro rfl
        rcases taken_quit now m ht with h | h <;> exact hm.2 (by rw [h]; decide)
      obtain ⟨i1, i2⟩ := ih (fun x hx => hu x (by simp [hx])) (bPerform B st r).1 fun r' d' h => hs r' d' (.inr h)
      rw [hb] at h0
      obtain ⟨a1, a2⟩ := bAnswer_eq B st m.opcode b h0
      rw [← hb] at a1 a2
      simp only [a1, if_neg hq, i1, bPerformAll, List.zipWith_cons_cons, List.flatMap_cons, BinMsg.reply]
      refine ⟨by simp [BTalk.after], ?_⟩
      intro a hx
      rw [List.mem_cons] at hx
      rcases hx with rfl | hx
      · exact a2
      · exact i2 a hx

theorem encode_length (ms : List BinMsg) : ms.length ≤ (ms.flatMap BinMsg.encode).length := by
  induction ms with
  | nil => simp
  | cons m ms ih =>
    have : 24 ≤ m.encode.length := by
      rw [BinMsg.encode, BinMsg.bytes_eq, List.length_append, BinMsg.header_length]; omega
    simp only [List.flatMap_cons, List.length_append, List.length_cons]
    omega

/-- Answers stay in step with requests: for every list of requests, every state of the node and everything
it does, each request is carried out once, in order, and has exactly one answer, in order, under its own
operation code; what is refused or unknown has no effect and is answered too.  Missing: forwarded `incr` and
`decr` that succeed (see `C72_number_as_text`); the answers do not carry the tag of the request
(`C72_tag_lost`). -/
theorem C72_in_step_partial (B : BBack σ) (now : Int64) (ms : List BinMsg) (hu : ∀ m ∈ ms, m.Usual) (st : σ)
    (hs : ∀ r d, some (r, d) ∈ (bPerformAll B st (ms.map (·.taken now))).2 → Did.BSound r d) :
    let t := binServeAll B now st (ms.flatMap BinMsg.encode)
    let p := bPerformAll B st (ms.map (·.taken now))
    t.stop = .closed ∧ t.st = p.1 ∧ t.did = p.2.filterMap id ∧
      readBins ms.length t.out = some (ms.zipWith BinMsg.reply p.2, []) := by
  obtain ⟨k, hk⟩ : ∃ k, (ms.flatMap BinMsg.encode).length + 1 = ms.length + (k + 1) :=
    ⟨(ms.flatMap BinMsg.encode).length - ms.length, by have := encode_length ms; omega⟩
  obtain ⟨h1, h2⟩ := binSession_msgs B now ms hu st hs (k + 1) []
  rw [List.append_nil] at h1
  have hr := readBins_flat _ h2 []
  have hlen : (ms.zipWith BinMsg.reply (bPerformAll B st (ms.map (·.taken now))).2).length = ms.length := by
    rw [List.length_zipWith, bPerformAll_length, List.length_map, Nat.min_self]
  rw [hlen, List.append_nil] at hr
  simp only [binServeAll, hk, h1]
  refine ⟨rfl, rfl, ?_, ?_⟩
  · simp [BTalk.after, binSession, takeBin]
  · simp only [BTalk.after, binSession, takeBin, List.head?_nil, List.append_nil]
    exact hr

/-- A node that keeps everything itself, for examples. -/
def binNode (now : Int64) : BBack Store where
  write s w := ((step s { now := now } w.call).1, .own (step s { now := now } w.call).2)
  read s k := ((step s { now := now } (.get { key := k } {})).1,
    .here (step s { now := now } (.get { key := k } {})).2)
  status s := (s, none)
  flush s := ((step s { now := now } .flush).1, (step s { now := now } .flush).2.rc = .ok)

/-- A `setq`, an `incr` by 2, a `getk`, a set with the wrong extras, an unknown request, a `getq` of nothing
and a `noop`. -/
def sevenMsgs : List BinMsg :=
  [{ opcode := 0x11, extras := [0, 0, 0, 7, 0, 0, 0, 0], key := ascii "n", value := ascii "40", tag := 1 },
   { opcode := 0x05, extras := beBytes 8 2 ++ beBytes 8 0 ++ beBytes 4 0, key := ascii "n", value := [], tag := 2 },
   { opcode := 0x0c, extras := [], key := ascii "n", value := [], tag := 3 },
   { opcode := 0x01, extras := [1], key := ascii "n", value := ascii "x", tag := 4 },
   { opcode := 0x1b, extras := [], key := [], value := [], tag := 5 },
   { opcode := 0x09, extras := [], key := ascii "z", value := [], tag := 6 },
   { opcode := 0x0a, extras := [], key := [], value := [], tag := 7 }]

example : sevenMsgs.all (fun m => m.extras.length < 256 ∧ m.key.length < 65536 ∧
    m.extras.length + m.key.length + m.value.length < 2147483648 ∧ m.opcode ∉ ([0x07, 0x17, 0x10] : List UInt8)) =
    true := by decide +kernel

example : let t := binServeAll (binNode 1000) 1000 { cacheSize := 0 } (sevenMsgs.flatMap BinMsg.encode)
    t.stop = .closed ∧ t.did.map (·.1) =
      [.write ⟨{ cmd := .set, entry := { key := ascii "n", flag := 7, size := 2, data := ascii "40" } }, false⟩,
       .write ⟨{ cmd := .incr, value := 2, entry := { key := ascii "n", size := 1, data := ascii "0" } }, false⟩,
       .get (ascii "n"), .unknown, .get (ascii "z"), .noop] ∧
    readBins 7 t.out = some (
      [.plain 0x11 0 [], .plain 0x05 0 [0, 0, 0, 0, 0, 0, 0, 42],
       { opcode := 0x0c, extras := [0, 0, 0, 7], key := ascii "n", value := ascii "42" },
       .plain 0x01 0x84 (ascii "Internal error"), .plain 0x0a 0x84 (ascii "Internal error"),
       .plain 0x09 1 (ascii "Not found"), .plain 0x0a 0 []], []) := by decide +kernel

/-- `quit` and `quitq` are both answered, and nothing behind them is looked at. -/
theorem C72_quit (B : BBack σ) (now : Int64) (ms : List BinMsg) (hu : ∀ m ∈ ms, m.Usual) (st : σ)
    (hs : ∀ r d, some (r, d) ∈ (bPerformAll B st (ms.map (·.taken now))).2 → Did.BSound r d)
    (q : BinMsg) (hq : q.Fits) (ho : q.opcode = 0x07 ∨ q.opcode = 0x17) (more : Bytes) :
    let t := binServeAll B now st (ms.flatMap BinMsg.encode ++ (q.encode ++ more))
    let p := bPerformAll B st (ms.map (·.taken now))
    t.stop = .quit ∧ t.st = p.1 ∧ t.did = p.2.filterMap id ++ [(.quit, .nothing)] ∧
      readBins (ms.length + 1) t.out = some (ms.zipWith BinMsg.reply p.2 ++ [.plain q.opcode 0 []], []) := by
  obtain ⟨k, hk⟩ : ∃ k, (ms.flatMap BinMsg.encode ++ (q.encode ++ more)).length + 1 = ms.length + (k + 1) :=
    ⟨(ms.flatMap BinMsg.encode ++ (q.encode ++ more)).length - ms.length, by
      have := encode_length ms; rw [List.length_append]; omega⟩
  obtain ⟨h1, h2⟩ := binSession_msgs B now ms hu st hs (k + 1) (q.encode ++ more)
  have ht : q.taken now = some .quit := by
    have g1 := (q.header_get 0x80 hq).1
    have ht' : (q.bytes 0x80).take 24 = q.header 0x80 := by
      rw [BinMsg.bytes_eq, List.take_left' (q.header_length 0x80)]
    simp only [BinMsg.taken, ht', cutRequest, g1]
    rcases ho with h | h <;> rw [h] <;> rfl
  have hx : q.opcode ≠ 0x10 := by rcases ho with h | h <;> rw [h] <;> decide
  have hb := binResult_eq q.opcode .end_ [] (text_ascii (by decide))
  have hfit : (BinMsg.plain q.opcode 0 []).Fits := hb.2
  have hl : binSession B now (k + 1) (bPerformAll B st (ms.map (·.taken now))).1 (q.encode ++ more) =
      { st := (bPerformAll B st (ms.map (·.taken now))).1, did := [(.quit, .nothing)],
        out := (BinMsg.plain q.opcode 0 []).bytes 0x81, stop := .quit } := by
    simp only [binSession, takeBin_encode now q hq hx, ht, bPerform, bAnswer, hb.1, if_true, OpResult.bin]
  have hr := readBins_flat (ms.zipWith BinMsg.reply (bPerformAll B st (ms.map (·.taken now))).2 ++
    [.plain q.opcode 0 []]) (by
      intro m hm
      rw [List.mem_append, List.mem_singleton] at hm
      rcases hm with hm | rfl
      · exact h2 m hm
      · exact hfit) []
  have hlen : (ms.zipWith BinMsg.reply (bPerformAll B st (ms.map (·.taken now))).2).length = ms.length := by
    rw [List.length_zipWith, bPerformAll_length, List.length_map, Nat.min_self]
  rw [List.length_append, hlen, List.append_nil, List.flatMap_append, List.flatMap_singleton] at hr
  simp only [binServeAll, hk, h1, hl]
  exact ⟨rfl, rfl, rfl, hr⟩

/-- A request cut off by the end of the connection has no effect, wherever it is cut: exactly what was
complete has been carried out. -/
theorem C72_cut_off (B : BBack σ) (now : Int64) (ms : List BinMsg) (hu : ∀ m ∈ ms, m.Usual) (st : σ)
    (hs : ∀ r d, some (r, d) ∈ (bPerformAll B st (ms.map (·.taken now))).2 → Did.BSound r d)
    (q : BinMsg) (hq : q.Fits) (ho : q.opcode ≠ 0x10) (n : Nat) (hn : n < q.encode.length) :
    let t := binServeAll B now st (ms.flatMap BinMsg.encode ++ q.encode.take n)
    let p := bPerformAll B st (ms.map (·.taken now))
    t.stop = .closed ∧ t.st = p.1 ∧ t.did = p.2.filterMap id ∧
      ∃ rest, readBins ms.length t.out = some (ms.zipWith BinMsg.reply p.2, rest) ∧ (n < 24 ↔ rest = []) := by
  obtain ⟨k, hk⟩ : ∃ k, (ms.flatMap BinMsg.encode ++ q.encode.take n).length + 1 = ms.length + (k + 1) :=
    ⟨(ms.flatMap BinMsg.encode ++ q.encode.take n).length - ms.length, by
      have := encode_length ms; rw [List.length_append]; omega⟩
  obtain ⟨h1, h2⟩ := binSession_msgs B now ms hu st hs (k + 1) (q.encode.take n)
  have hlen : (ms.zipWith BinMsg.reply (bPerformAll B st (ms.map (·.taken now))).2).length = ms.length := by
    rw [List.length_zipWith, bPerformAll_length, List.length_map, Nat.min_self]
  obtain ⟨g1, -, -, g4, -, -⟩ := q.header_get 0x80 hq
  have hl := q.header_length 0x80
  have hm : intMax = 2147483647 := rfl
  have h3 := hq.2.2
  have hel : q.encode.length = 24 + (q.extras.length + q.key.length + q.value.length) := by
    rw [BinMsg.encode, BinMsg.bytes_eq]; simp only [List.length_append, hl]
  have htl : (q.encode.take n).length = n := by rw [List.length_take]; omega
  have main : ∃ b, binSession B now (k + 1) (bPerformAll B st (ms.map (·.taken now))).1 (q.encode.take n) =
      { st := (bPerformAll B st (ms.map (·.taken now))).1, out := b, stop := .closed } ∧ (n < 24 ↔ b = []) := by
    cases n with
    | zero => exact ⟨[], rfl, by simp⟩
    | succ n =>
      have hh : (q.encode.take (n + 1)).head? = some 0x80 := rfl
      by_cases h24 : n + 1 < 24
      · refine ⟨[], ?_, by simp [h24]⟩
        have : takeBin now (q.encode.take (n + 1)) = .over := by
          simp only [takeBin, hh]
          rw [if_neg (by decide), if_pos (by rw [show hSize = 24 from rfl]; omega)]
        simp only [binSession, this]
      · have hn' : takeBin now (q.encode.take (n + 1)) = .cut q.opcode.toNat := by
          have ht : (q.encode.take (n + 1)).take 24 = q.header 0x80 := by
            rw [List.take_take, Nat.min_eq_left (by omega), BinMsg.encode, BinMsg.bytes_eq, List.take_left' hl]
          have hop : q.opcode.toNat ≠ 0x10 := fun h => ho (UInt8.toNat_inj.1 h)
          have hb : bodySize (q.extras.length + q.key.length + q.value.length) =
              q.extras.length + q.key.length + q.value.length := by rw [bodySize, if_pos (by omega)]
          simp only [takeBin, hh, hSize, ht, g4, g1, hb]
          rw [if_neg (by decide), if_neg (by omega), if_neg hop, if_pos (by omega)]
        obtain ⟨c, hc⟩ : ∃ c : UInt8, answerCode q.opcode.toNat = c.toNat := by
          have : answerCode q.opcode.toNat = 0x0a ∨ answerCode q.opcode.toNat = q.opcode.toNat := by
            unfold answerCode
            split
            · exact .inl rfl
            · exact .inr rfl
          rcases this with h | h
          · exact ⟨0x0a, h⟩
          · exact ⟨q.opcode, h⟩
        have hb := binResult_eq c .error [] (text_ascii (by decide))
        refine ⟨(OpResult.bin c [] .error).bytes 0x81, ?_, ?_⟩
        · simp only [binSession, hn', hc, hb.1]
        · constructor
          · intro h; omega
          · intro h; cases h
  obtain ⟨b, hb1, hb2⟩ := main
  simp only [binServeAll, hk, h1, hb1]
  refine ⟨rfl, rfl, by simp [BTalk.after], b, ?_, hb2⟩
  have hr := readBins_flat _ h2 b
  rw [hlen] at hr
  exact hr

/-! ### Tags and quiet requests -/

/-- A request is cut by what its operation code says and by the lengths and the version in the header. -/
theorem cutRequest_congr (now : Int64) (h h' d : Bytes) (e1 : binOpOf (hget h .opcode) = binOpOf (hget h' .opcode))
    (e2 : hget h .keyLength = hget h' .keyLength) (e3 : hget h .extrasLength = hget h' .extrasLength)
    (e4 : hget h .totalBodyLength = hget h' .totalBodyLength) (e5 : hget h .cas = hget h' .cas) :
    cutRequest now h d = cutRequest now h' d := by
  have h1 : ∀ b e, entryParseBin h b e = entryParseBin h' b e := by
    intro b e; simp only [entryParseBin, e2, e3, e4, e5]
  have h2 : ∀ b z, bodyData h b z = bodyData h' b z := by
    intro b z; simp only [bodyData, e2, e3]
  simp only [cutRequest, e1]
  cases binOpOf (hget h' .opcode) <;>
    simp only [parseBin, parseBinSet, parseBinGet, parseBinAppend, parseBinDelete, parseBinIncr, parseBinTouch,
      parseBinStats, h1, h2, e2, e3, e4]

theorem taken_congr (now : Int64) (m m' : BinMsg) (hf : m.Fits) (h1 : binOpOf m.opcode.toNat = binOpOf m'.opcode.toNat)
    (h2 : ∀ b, binReqOf m.opcode.toNat b = binReqOf m'.opcode.toNat b) (hx : m.extras = m'.extras)
    (hk : m.key = m'.key) (hv : m.value = m'.value) (hc : m.cas = m'.cas) : m.taken now = m'.taken now := by
  have hf' : m'.Fits := by
    simp only [BinMsg.Fits] at hf ⊢
    rw [← hx, ← hk, ← hv]; exact hf
  obtain ⟨a1, a2, a3, a4, -, a6⟩ := m.header_get 0x80 hf
  obtain ⟨b1, b2, b3, b4, -, b6⟩ := m'.header_get 0x80 hf'
  have t (m : BinMsg) : (m.bytes 0x80).take 24 = m.header 0x80 := by
    rw [BinMsg.bytes_eq, List.take_left' (m.header_length 0x80)]
  simp only [BinMsg.taken, t]
  rw [cutRequest_congr now (m.header 0x80) (m'.header 0x80) _ (by rw [a1, b1, h1]) (by rw [a2, b2, hk])
    (by rw [a3, b3, hx]) (by rw [a4, b4, hx, hk, hv]) (by rw [a6, b6, hc]), hx, hk, hv]
  simp only [h2]

/-- Defect: no answer carries the tag of its request or the version of the value.  A client that finds the
request to an answer by its tag finds none; whatever tags the requests have, everything the node does and
sends is the same. -/
theorem C72_tag_lost (B : BBack σ) (now : Int64) (ms : List BinMsg) (hu : ∀ m ∈ ms, m.Usual) (st : σ)
    (tag : BinMsg → UInt32) :
    binServeAll B now st ((ms.map fun m => { m with tag := tag m }).flatMap BinMsg.encode) =
      binServeAll B now st (ms.flatMap BinMsg.encode) ∧
    ∀ m x, (BinMsg.reply m x).tag = 0 ∧ (BinMsg.reply m x).cas = 0 := by
  constructor
  · have el (m : BinMsg) (t : UInt32) : ({ m with tag := t } : BinMsg).encode.length = m.encode.length := by
      simp only [BinMsg.encode, BinMsg.bytes_eq, List.length_append, BinMsg.header_length]
    have len : ((ms.map fun m => ({ m with tag := tag m } : BinMsg)).flatMap BinMsg.encode).length =
        (ms.flatMap BinMsg.encode).length := by
      clear hu
      induction ms with
      | nil => rfl
      | cons m ms ih => simp only [List.map_cons, List.flatMap_cons, List.length_append, el, ih]
    simp only [binServeAll, len]
    generalize (ms.flatMap BinMsg.encode).length + 1 = n
    clear len
    induction ms generalizing st n with
    | nil => rfl
    | cons m ms ih =>
      cases n with
      | zero => rfl
      | succ n =>
        have hm := hu m (by simp)
        have ho : m.opcode ≠ 0x10 := fun h => hm.2 (by rw [h]; decide)
        have hi := fun st => ih (fun x hx => hu x (by simp [hx])) st n
        have tk : ({ m with tag := tag m } : BinMsg).taken now = m.taken now :=
          taken_congr now _ m hm.1 rfl (fun _ => rfl) rfl rfl rfl rfl
        simp only [List.map_cons, List.flatMap_cons]
        rw [binSession, binSession, takeBin_encode now m hm.1 ho,
          takeBin_encode now { m with tag := tag m } hm.1 ho, tk]
        cases m.taken now <;> simp only [hi]
  · intro m x
    cases x with
    | none => exact ⟨rfl, rfl⟩
    | some x =>
      have ores (r : OpResult) (op : UInt8) (msg : Bytes) : (r.bin op msg).tag = 0 ∧ (r.bin op msg).cas = 0 := by
        cases r <;> exact ⟨rfl, rfl⟩
      obtain ⟨r, d⟩ := x
      simp only [BinMsg.reply]
      unfold BReq.reply
      split
      · rename_i d
        unfold Done.bin
        split
        · exact ⟨rfl, rfl⟩
        · exact ⟨rfl, rfl⟩
        · exact ⟨rfl, rfl⟩
        · split
          · exact ⟨rfl, rfl⟩
          · exact ores _ _ _
        · split
          · split
            · exact ⟨rfl, rfl⟩
            · split
              · exact ⟨rfl, rfl⟩
              · exact ores _ _ _
          · exact ⟨rfl, rfl⟩
      · split <;> exact ⟨rfl, rfl⟩
      all_goals exact ⟨rfl, rfl⟩

/-- Defect: a quiet request is carried out and answered exactly as the plain one, also where the protocol
wants silence (a miss of `getq`, a success of `setq`): only the operation code is its own. -/
theorem C72_never_quiet (B : BBack σ) (now : Int64) (m : BinMsg) (hf : m.Fits) (p : UInt8)
    (hp : (m.opcode.toNat, p.toNat) ∈ quietPairs) (st : σ)
    (hs : ∀ r, m.taken now = some r → Did.BSound r (bPerform B st r).2) :
    let t := binServeAll B now st m.encode
    let t' := binServeAll B now st ({ m with opcode := p } : BinMsg).encode
    t.st = t'.st ∧ t.did = t'.did ∧
      ∃ a, readBin t'.out = some (a, []) ∧ a.opcode = p ∧ readBin t.out = some ({ a with opcode := m.opcode }, []) := by
  obtain ⟨m', hm'⟩ : ∃ m' : BinMsg, m' = { m with opcode := p } := ⟨_, rfl⟩
  have pairs : ∀ x ∈ quietPairs, binOpOf x.1 = binOpOf x.2 ∧ (∀ b, binReqOf x.1 b = binReqOf x.2 b) ∧
      x.1 ∉ [0x07, 0x17, 0x10] ∧ x.2 ∉ [0x07, 0x17, 0x10] ∧
      ((x.1 = 0x0c ∨ x.1 = 0x0d) ↔ (x.2 = 0x0c ∨ x.2 = 0x0d)) ∧ ∀ b, binReqOf x.1 b ≠ .unknown := by
    intro x hx
    simp only [quietPairs, List.mem_cons, List.mem_nil_iff, or_false] at hx
    rcases hx with rfl | rfl | rfl | rfl | rfl | rfl | rfl | rfl | rfl | rfl | rfl <;>
      exact ⟨rfl, fun _ => rfl, by decide, by decide, by decide, fun _ h => by cases h⟩
  obtain ⟨p1, p2, p3, p4, p5, p6⟩ := pairs _ hp
  have tk : m.taken now = m'.taken now := by
    subst hm'
    exact taken_congr now m { m with opcode := p } hf p1 p2 rfl rfl rfl rfl
  have hop : (m.opcode = 0x0c ∨ m.opcode = 0x0d) ↔ (p = 0x0c ∨ p = 0x0d) := by
    simpa [← UInt8.toNat_inj] using p5
  have us (x : UInt8) (h : x.toNat ∉ [0x07, 0x17, 0x10]) : x ∉ ([0x07, 0x17, 0x10] : List UInt8) := by
    simpa [← UInt8.toNat_inj] using h
  have u1 : m.Usual := ⟨hf, us _ p3⟩
  have u2 : m'.Usual := by subst hm'; exact ⟨hf, us _ p4⟩
  have run1 := C72_in_step_partial B now [m] (by simpa using u1) st (by
    intro r d h
    simp only [List.map_cons, List.map_nil] at h
    cases ht : m.taken now with
    | none => rw [ht] at h; simp [bPerformAll] at h
    | some r' =>
      rw [ht] at h
      simp only [bPerformAll, List.mem_singleton, Option.some.injEq, Prod.mk.injEq] at h
      rw [h.1, h.2]
      exact hs r' ht)
  have run2 := C72_in_step_partial B now [m'] (by simpa using u2) st (by
    intro r d h
    simp only [List.map_cons, List.map_nil, ← tk] at h
    cases ht : m.taken now with
    | none => rw [ht] at h; simp [bPerformAll] at h
    | some r' =>
      rw [ht] at h
      simp only [bPerformAll, List.mem_singleton, Option.some.injEq, Prod.mk.injEq] at h
      rw [h.1, h.2]
      exact hs r' ht)
  simp only [List.map_cons, List.map_nil, ← tk, List.flatMap_singleton] at run1 run2
  rw [← hm']
  obtain ⟨-, s1, d1, o1⟩ := run1
  obtain ⟨-, s2, d2, o2⟩ := run2
  refine ⟨s1.trans s2.symm, d1.trans d2.symm, ?_⟩
  have one (s : Bytes) (a : BinMsg) (h : readBins 1 s = some ([a], [])) : readBin s = some (a, []) := by
    simp only [readBins] at h
    cases hr : readBin s with
    | none => rw [hr] at h; cases h
    | some x =>
      rw [hr] at h
      simp only [Option.map_some, Option.some.injEq, Prod.mk.injEq, List.cons.injEq, and_true] at h
      rw [← h.1, ← h.2]
  have rep : ∀ x, (∀ r d, x = some (r, d) → r ≠ .unknown) →
      (m'.reply x).opcode = p ∧ m.reply x = { m'.reply x with opcode := m.opcode } := by
    intro x hx
    have ho' : m'.opcode = p := by rw [hm']
    cases x with
    | none => simp only [BinMsg.reply, BinMsg.refused, BinMsg.plain, ho', and_self]
    | some x =>
      obtain ⟨r, d⟩ := x
      have hu := hx r d rfl
      have ores (r : OpResult) (msg : Bytes) : (r.bin p msg).opcode = p ∧
          r.bin m.opcode msg = { r.bin p msg with opcode := m.opcode } := by
        cases r <;> exact ⟨rfl, rfl⟩
      have oent (e : Entry) : (e.bin p).opcode = p ∧ e.bin m.opcode = { e.bin p with opcode := m.opcode } := by
        refine ⟨rfl, ?_⟩
        simp only [Entry.bin, hop]
      have triv (st : UInt16) (v : Bytes) : (BinMsg.plain p st v).opcode = p ∧
          BinMsg.plain m.opcode st v = { BinMsg.plain p st v with opcode := m.opcode } := ⟨rfl, rfl⟩
      simp only [BinMsg.reply, ho']
      cases r with
      | unknown => exact absurd rfl hu
      | write w =>
        cases d with
        | wrote d =>
          simp only [BReq.reply]
          cases d with
          | noQueue => exact triv _ _
          | noPartition => exact triv _ _
          | sent ok r msg e =>
            cases ok with
            | false => exact triv _ _
            | true =>
              simp only [Done.bin]
              split
              · exact oent _
              · exact ores _ _
          | own o =>
            simp only [Done.bin]
            split
            · split
              · exact triv _ _
              · split
                · exact oent _
                · exact ores _ _
            · exact triv _ _
        | got _ => exact triv _ _
        | status _ => exact triv _ _
        | flushed _ => exact triv _ _
        | nothing => exact triv _ _
      | get k =>
        cases d with
        | got rs =>
          match rs with
          | [] => exact triv _ _
          | [x] =>
            simp only [BReq.reply]
            split
            · exact oent _
            · exact ⟨rfl, by simp only [hop]⟩
          | _ :: _ :: _ => exact triv _ _
        | wrote _ => exact triv _ _
        | status _ => exact triv _ _
        | flushed _ => exact triv _ _
        | nothing => exact triv _ _
      | noop =>
        cases d with
        | status o => cases o <;> exact triv _ _
        | got _ => exact triv _ _
        | wrote _ => exact triv _ _
        | flushed _ => exact triv _ _
        | nothing => exact triv _ _
      | version => exact triv _ _
      | flush =>
        cases d with
        | flushed o => cases o <;> exact triv _ _
        | got _ => exact triv _ _
        | wrote _ => exact triv _ _
        | status _ => exact triv _ _
        | nothing => exact triv _ _
      | quit => exact triv _ _
  cases ht : m.taken now with
  | none =>
    rw [ht] at o1 o2
    obtain ⟨r1, r2⟩ := rep none (by simp)
    refine ⟨m'.reply none, one _ _ o2, r1, ?_⟩
    rw [← r2]
    exact one _ _ o1
  | some r =>
    rw [ht] at o1 o2
    obtain ⟨b, hb⟩ := taken_some now m ht
    obtain ⟨r1, r2⟩ := rep (some (r, (bPerform B st r).2)) (by
      intro r' d' h
      cases h
      rw [hb]; exact p6 b)
    refine ⟨m'.reply (some (r, (bPerform B st r).2)), one _ _ o2, r1, ?_⟩
    rw [← r2]
    exact one _ _ o1

/-! ### Where the stream goes wrong -/

/-- Defect: an `incr` or `decr` that another node has carried out is answered with the line of the text
protocol.  A client of the binary protocol cannot read it, whatever comes behind. -/
theorem C72_number_as_text (B : BBack σ) (now : Int64) (m : BinMsg) (hf : m.Fits) (ho : m.opcode ≠ 0x10) (st : σ)
    (w : HeldOp) (ht : m.taken now = some (.write w)) (hc : w.req.cmd.kind = .count) (n : Nat) (e : Option Entry)
    (hd : (B.write st w).2 = .sent true .stored (decimal n ++ crlf) e) (more : Bytes) :
    (∃ rest, (binServeAll B now st (m.encode ++ more)).out = decimal n ++ crlf ++ rest) ∧
      ∀ rest, readBin (decimal n ++ crlf ++ rest) = none := by
  constructor
  · have : ∃ k, (m.encode ++ more).length + 1 = k + 1 := ⟨_, rfl⟩
    obtain ⟨k, hk⟩ := this
    simp only [binServeAll, hk, binSession, takeBin_encode now m hf ho, ht, bPerform, bAnswer, binWriteAnswer, hd,
      Bool.not_true, Bool.false_eq_true, if_false, hc, and_self, if_true, reduceCtorEq]
    exact ⟨_, rfl⟩
  · intro rest
    have h1 := decimal_ne_nil n
    have h2 := decimal_digits n
    cases hn : decimal n with
    | nil => exact absurd hn h1
    | cons c cs =>
      rw [hn] at h2
      have h3 := h2 c (by simp)
      have : c ≠ 0x81 := by rintro rfl; exact absurd h3 (by decide)
      simp only [readBin, List.cons_append, List.head?_cons]
      rw [if_pos (.inl (by simpa using this))]

/-- A node that forwards `incr`; the other node has answered 42. -/
def numberAway (now : Int64) : BBack Store :=
  { binNode now with write := fun s w =>
      if w.req.cmd = .incr then (s, .sent true .stored (ascii "42\r\n") none) else (binNode now).write s w }

/-- The answers before it can be read, this one and those behind it not. -/
example : let t := binServeAll (numberAway 1000) 1000 { cacheSize := 0 } ((sevenMsgs.take 3).flatMap BinMsg.encode)
    (readBins 1 t.out).map (·.1) = some [.plain 0x11 0 []] ∧ (readBins 1 t.out).map (·.2.take 4) = some (ascii "42\r\n") ∧
    readBins 2 t.out = none := by decide +kernel

/-- Defect: a request with an unknown operation code is answered under the code of `noop`: the client that
waits for the answer to its `noop` behind it takes this one. -/
theorem C72_unknown_as_noop (B : BBack σ) (now : Int64) (m : BinMsg) (hf : m.Fits)
    (ho : m.opcode = 0x1b ∨ 0x1e < m.opcode) (st : σ) (more : Bytes) :
    let t := binServeAll B now st (m.encode ++ more)
    t.did.head? = some (.unknown, .nothing) ∧
      ∃ rest, readBin t.out = some (.plain 0x0a 0x84 (ascii "Internal error"), rest) := by
  have hn : ∀ n < 256, n = 0x1b ∨ 0x1e < n → binOpOf n = .other ∧ n ≠ 0x10 ∧
      binReqOf n { op := .other } = .unknown ∧ answerCode n = 0x0a := by decide +kernel
  have hx : m.opcode.toNat = 0x1b ∨ 0x1e < m.opcode.toNat := by
    rcases ho with h | h
    · left; rw [h]; rfl
    · right; exact h
  obtain ⟨h1, h2, h3, h4⟩ := hn _ m.opcode.toNat_lt hx
  have ht : m.taken now = some .unknown := by
    have g1 := (m.header_get 0x80 hf).1
    have ht' : (m.bytes 0x80).take 24 = m.header 0x80 := by
      rw [BinMsg.bytes_eq, List.take_left' (m.header_length 0x80)]
    simp only [BinMsg.taken, ht', cutRequest, g1, h1, parseBin, h3]
  have hb := binResult_eq 0x0a .error [] (text_ascii (by decide))
  have hb1 : binResult 0x0a .error [] = .ok ((OpResult.bin 0x0a [] .error).bytes 0x81) := hb.1
  have hk : ∃ k, (m.encode ++ more).length + 1 = k + 1 := ⟨_, rfl⟩
  obtain ⟨k, hk⟩ := hk
  simp only [binServeAll, hk, binSession, takeBin_encode now m hf (fun h => h2 (by rw [h]; rfl)), ht, bPerform,
    bAnswer, h4, hb1, reduceCtorEq, if_false, BTalk.after]
  exact ⟨rfl, _, readBin_bytes _ hb.2 _⟩

/-! ### What the own storage does makes sense -/

/-- Every outcome of the own storage can be sent (for `gat` if the value can be). -/
theorem C72_own_outcome (s : Store) (env : Env) (w : HeldOp) (hub : (step s env w.call).2.rc ≠ .ub)
    (hg : w.req.cmd = .gat → (step s env w.call).2.r = some .touched → BinValue (step s env w.call).2.e) :
    Done.BSound w.req.cmd (.own (step s env w.call).2) := by
  refine ⟨hub, fun hok => ?_⟩
  cases hcall : w.req.call with
  | set e b =>
    have hc : ¬ w.req.cmd.kind = .count := by
      intro hc
      generalize hx : w.req.cmd = c at hc
      cases c <;> first | (cases hc; done) | (simp only [WriteReq.call, hx] at hcall; cases hcall)
    have hr : ∃ r, (step s env w.call).2.r = some r := by
      simp only [HeldOp.call, hcall] at hok ⊢
      generalize ({ b with cas := b.cas || w.cas } : Beh) = b at hok ⊢
      simp only [step, set] at hok ⊢
      generalize setCurrent s env e b = cu at hok ⊢
      obtain ⟨s', cur, ex⟩ := cu
      simp only at hok ⊢
      cases hch : setCheck (setState env.now b cur ex) b e.version cur.version with
      | error x => exact ⟨x, rfl⟩
      | ok v =>
        rw [hch] at hok
        simp only at hok ⊢
        cases hp : setPrepare (setState env.now b cur ex) b { e with version := v } cur with
        | error u => rw [hp] at hok; cases hok
        | ok oe =>
          rw [hp] at hok
          cases oe with
          | none => cases hok
          | some e =>
            simp only at hok ⊢
            cases hput : putRecord s' e with
            | none => rw [hput] at hok; cases hok
            | some s'' =>
              rw [hput] at hok
              simp only at hok ⊢
              by_cases hpo : (!env.putOk) = true
              · rw [if_pos hpo] at hok; cases hok
              · rw [if_neg hpo]; exact ⟨_, rfl⟩
    obtain ⟨r, hr⟩ := hr
    exact ⟨r, hr, fun h => absurd h hc, fun h1 h2 => hg h1 (by rw [hr, h2])⟩
  | incr e v i b =>
    have hne : w.req.cmd ≠ .gat := by
      intro h; simp only [WriteReq.call, h] at hcall; cases hcall
    simp only [HeldOp.call, hcall, step, incr] at hok ⊢
    have key : ∀ x, x = incrLocked s env e v i b → x.2.1.rc = .ok → ∃ y, x.2.1.r = some y ∧
        (y = .stored → isUnsignedString (x.2.1.e.data.take x.2.1.e.size.toNat) = true ∧
          decValue (x.2.1.e.data.take x.2.1.e.size.toNat) < 2 ^ 64) := by
      intro x hx hrc
      simp only [incrLocked] at hx
      split at hx
      · subst hx; exact ⟨_, rfl, fun h => by cases h⟩
      · split at hx
        · subst hx; cases hrc
        · split at hx
          · subst hx; cases hrc
          · split at hx
            · subst hx; exact ⟨_, rfl, fun h => by cases h⟩
            · split at hx
              · subst hx; cases hrc
              · split at hx
                · subst hx; cases hrc
                · subst hx
                  refine ⟨_, rfl, fun _ => ?_⟩
                  simp only
                  generalize hm : (incrValue _ _ _).toNat = m
                  have hlt : m < 2 ^ 64 := by rw [← hm]; exact UInt64.toNat_lt _
                  have hl : (decimal m).length ≤ 20 := decimal_length_64 hlt
                  have hsz : (UInt64.ofNat (decimal m).length).toNat = (decimal m).length := by
                    rw [UInt64.toNat_ofNat']
                    exact Nat.mod_eq_of_lt (by omega)
                  rw [hsz, List.take_length, decValue_decimal]
                  exact ⟨isUnsigned_decimal m, hlt⟩
    obtain ⟨x, hx⟩ : ∃ x, x = incrLocked s env e v i b := ⟨_, rfl⟩
    rw [← hx] at hok ⊢
    have h := key x hx
    obtain ⟨a, o, c⟩ := x
    cases c with
    | none =>
      obtain ⟨y, h1, h2⟩ := h hok
      exact ⟨y, h1, fun _ => h2, fun h => absurd h hne⟩
    | some cur =>
      obtain ⟨y, h1, h2⟩ := h hok
      exact ⟨y, h1, fun _ => h2, fun h => absurd h hne⟩
  | remove e b =>
    have hd : w.req.cmd = .delete := by
      generalize hx : w.req.cmd = c
      cases c <;> first | rfl | (simp only [WriteReq.call, hx] at hcall; cases hcall)
    have : ∃ y, (step s env w.call).2.r = some y := by
      simp only [HeldOp.call, hcall, step, remove] at hok ⊢
      split at hok
      · rename_i h; rw [if_pos h]; exact ⟨_, rfl⟩
      · rename_i h
        rw [if_neg h]
        split at hok
        · rename_i h; rw [if_pos h]; exact ⟨_, rfl⟩
        · rename_i h
          rw [if_neg h]
          split at hok
          · cases hok
          · rename_i h; rw [if_neg h]; exact ⟨_, rfl⟩
    obtain ⟨y, hy⟩ := this
    exact ⟨y, hy, fun h => (by rw [hd] at h; cases h), fun h => (by rw [hd] at h; cases h)⟩
  | get _ _ =>
    exfalso
    simp only [WriteReq.call] at hcall
    split at hcall <;> cases hcall
  | flush =>
    exfalso
    simp only [WriteReq.call] at hcall
    split at hcall <;> cases hcall

end Flare
