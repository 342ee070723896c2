import Verif.Spec.Session
import Verif.Props.Control
import Verif.Props.Keys
import Verif.Lemmas.ConnRequest
import Verif.Lemmas.Dump

namespace Flare

/-! ### Reading requests -/

theorem takeReq_of_decode {now : Int64} {first q s rest : Bytes} {r : WriteReq}
    (hh : s.head? ≠ some 0x80) (h : decodeWrite now first q s = .ok (r, rest)) :
    takeReq now first q s = .req (.write r) rest := by
  simp only [decodeWrite] at h
  simp only [takeReq, if_neg hh]
  cases h1 : readLine s with
  | none => simp [h1] at h
  | some x =>
    obtain ⟨line, s'⟩ := x
    simp only [h1] at h ⊢
    cases h2 : parseServer line first with
    | error f => simp [h2] at h
    | ok x =>
      obtain ⟨path, w, rest'⟩ := x
      simp only [h2] at h ⊢
      cases h3 : writeCmdOf w with
      | none => simp [h3] at h
      | some cmd =>
        simp only [h3] at h ⊢
        simp only [takeWrite, h]

theorem encodeWrite_head {r : WriteReq} {b more : Bytes} (h : encodeWrite r = some b) :
    (b ++ more).head? ≠ some 0x80 := by
  have key : ∀ (cmd : WriteCmd) (t : Bytes), (proxyIdent r.path ++ cmd.ident ++ t).head? ≠ some 0x80 := by
    intro cmd t
    by_cases hp : r.path = []
    · rw [hp]
      cases cmd <;> simp [proxyIdent, WriteCmd.ident]
    · simp [proxyIdent, hp, chLt]
  cases hk : r.cmd.kind <;> simp only [encodeWrite, hk] at h <;> split at h <;>
    first
      | (cases h; done)
      | (obtain rfl := Option.some.inj h
         first
           | simpa only [storeLine, List.append_assoc] using key r.cmd _
           | simpa only [countLine, List.append_assoc] using key r.cmd _
           | simpa only [deleteLine, List.append_assoc] using key .delete _
           | simpa only [touchLine, List.append_assoc] using key r.cmd _)

/-- A line with a first word that is no write. -/
theorem takeReq_word {now : Int64} {first q w t more : Bytes} (hw : ∀ x ∈ w, wordChar x = true) (hn : w ≠ [])
    (hlt : w.head? ≠ some chLt) (h80 : w.head? ≠ some 0x80) (ht : ∀ c ∈ t, c ≠ chNl)
    (he : Ends (t ++ [chNl])) (hl : w.length < first.length) (hc : writeCmdOf w = none) :
    takeReq now first q (w ++ t ++ crlf ++ more) =
      (if w = ascii "get" then takeGet .get (t ++ [chNl]) q more
      else if w = ascii "gets" then takeGet .gets (t ++ [chNl]) q more
      else if w = ascii "ping" then takeBare .ping (t ++ [chNl]) first more
      else if w = ascii "version" then takeBare .version (t ++ [chNl]) q more
      else if w = ascii "quit" then takeBare .quit (t ++ [chNl]) first more
      else if w = ascii "verbosity" then takeVerbosity (t ++ [chNl]) q more
      else if w = ascii "flush_all" then takeFlush (t ++ [chNl]) q more
      else if w ∈ otherCmds then .other
      else .bad more) := by
  have hh : (w ++ t ++ crlf ++ more).head? ≠ some 0x80 := by
    cases w with
    | nil => exact absurd rfl hn
    | cons x w => simpa using h80
  have h1 : readLine (w ++ t ++ crlf ++ more) = some (w ++ t ++ [chNl], more) := by
    apply readLine_crlf
    intro c hc
    rcases List.mem_append.1 hc with h | h
    · exact wordChar_ne_nl (hw c h)
    · exact ht c h
  have h2 : parseServer (w ++ t ++ [chNl]) first = .ok (none, w, t ++ [chNl]) := by
    rw [List.append_assoc]
    exact parseServer_word hw hn hlt he hl
  simp only [takeReq, if_neg hh, h1, h2, hc]

theorem takeBare_ok {r : SReq} {q s : Bytes} (hq : 0 < q.length) : takeBare r [chNl] q s = .req r s := by
  obtain ⟨q', a, b, -⟩ := scanWord_tok (w := []) (c := chNl) (rest := []) (q := q) 0 (by simp)
    (by decide) (by simpa using hq) (fun _ => by decide)
  simp only [List.replicate_zero, List.nil_append] at a
  simp only [takeBare, a, b, if_true]

theorem takeOptions_ok {f : Bool → SReq} {q s : Bytes} (hq : 32 ≤ q.length) (b : Bool) :
    takeOptions f ((if b then chSpace :: strNoreply else []) ++ [chNl]) q s = .req (f b) s := by
  cases b with
  | false =>
    obtain ⟨q', a, c, -⟩ := scanWord_tok (w := []) (c := chNl) (rest := []) (q := q) 0 (by simp)
      (by decide) (by simp; omega) (fun _ => by decide)
    simp only [List.replicate_zero, List.nil_append] at a
    simp only [takeOptions, Bool.false_eq_true, if_false, List.nil_append, parseOptions, a, c, if_true]
    rfl
  | true =>
    obtain ⟨q', a⟩ := parseOptions_words [strNoreply] (by simp)
      ((chSpace :: strNoreply ++ [chNl]).length + 1) (by simp) q hq { key := [] }
    simp only [optText, List.append_nil] at a
    simp only [takeOptions, if_true, a]
    rfl

theorem takeGet_ok {t : ResponseType} {ks : List Bytes} {q s : Bytes} (hq : 0 < q.length) (hne : ks ≠ [])
    (hk : ∀ k ∈ ks, PlainKey k q.length) :
    takeGet t (ks.flatMap (fun k => chSpace :: k) ++ [chNl]) q s = .req (.get t ks) s := by
  have h := getKeysLoop_words ks q hq hk
  have : getKeys (ks.flatMap (fun k => chSpace :: k) ++ [chNl]) q = .ok ks := by
    simp only [getKeys, h]
  simp only [takeGet, this]

theorem takeVerbosity_ok {n : Int} {q s : Bytes} (hq : 64 ≤ q.length) (h1 : -(intMax : Int) - 1 ≤ n)
    (h2 : n ≤ intMax) (b : Bool) :
    takeVerbosity (chSpace :: decimalInt n ++ ((if b then chSpace :: strNoreply else []) ++ [chNl])) q s =
      .req (.verbosity n b) s := by
  have hlen : (decimalInt n).length ≤ 20 := by
    have h := decimalInt_length (Int64.ofInt n)
    rw [Int64.toInt_ofInt_of_le (by simp [intMax] at h1; omega) (by simp [intMax] at h2; omega)] at h
    exact h
  obtain ⟨q', a, c, d⟩ := scanDigit_field (w := decimalInt n) (q := q)
    (t := (if b then chSpace :: strNoreply else []) ++ [chNl]) (decimalInt_chars n) (decimalInt_ne_nil n)
    (by cases b
        · exact ends_nl _
        · exact ends_space _) (by omega)
  have hl : ∃ neg m, lexNumber (decimalInt n) = some (neg, m) ∧
      (m ≤ intMax ∨ (neg = true ∧ m = intMax + 1)) ∧ (if neg then -(m : Int) else m) = n := by
    by_cases hn : n < 0
    · refine ⟨true, n.natAbs, ?_, ?_, ?_⟩
      · simp only [decimalInt, if_pos hn]; exact lexNumber_minus _
      · simp only [true_and]; omega
      · simp; omega
    · refine ⟨false, n.natAbs, ?_, ?_, ?_⟩
      · simp only [decimalInt, if_neg hn]; exact lexNumber_decimal _
      · left; omega
      · simp; omega
  obtain ⟨neg, m, e1, e2, e3⟩ := hl
  simp only [takeVerbosity, a, c, e1, if_pos e2, e3]
  exact takeOptions_ok (by omega) b

theorem takeFlush_ok {q s : Bytes} (hq : 64 ≤ q.length) (b : Bool) :
    takeFlush ((if b then chSpace :: strNoreply else []) ++ [chNl]) q s = .req (.flush b) s := by
  cases b with
  | false =>
    obtain ⟨q', a, c, d⟩ := scanDigit_empty (t := [chNl]) (q := q) (c := chNl) (r := []) 0 rfl (by decide)
      (by decide) (by omega)
    have := takeOptions_ok (f := .flush) (q := q') (s := s) (by omega) false
    simp only [Bool.false_eq_true, if_false, List.nil_append] at this ⊢
    simp only [takeFlush, a, c, ne_eq, not_true, false_and, if_false, this]
  | true =>
    obtain ⟨q', a, c, d⟩ := scanDigit_empty (t := chSpace :: strNoreply ++ [chNl]) (q := q) (c := 110)
      (r := [111, 114, 101, 112, 108, 121, chNl]) 1 (by decide) (by decide) (by decide) (by omega)
    have := takeOptions_ok (f := .flush) (q := q') (s := s) (by omega) true
    simp only [if_true] at this ⊢
    simp only [takeFlush, a, c, ne_eq, not_true, false_and, if_false]
    rw [← this]
    simp only [takeOptions]
    rw [show chSpace :: strNoreply ++ [chNl] =
      chSpace :: (110 :: [111, 114, 101, 112, 108, 121, chNl]) from by decide, parseOptions_blank]
    rw [parseOptions_fuel _ ((chSpace :: 110 :: [111, 114, 101, 112, 108, 121, chNl]).length + 1) _ q' _
      (by omega) (by simp) (by simp)]

/-- A proper request is read as it was meant, and what follows stays on the connection. -/
theorem takeReq_encode {now : Int64} {first q b more : Bytes} {r : SReq} (hf : first.length = 1024)
    (hq : q.length = 8192) (hp : r.Proper) (hb : encodeReq r = some b) :
    takeReq now first q (b ++ more) = .req (r.seen now) more := by
  cases r with
  | write r =>
    have hp : Sendable r q.length := by rw [hq]; exact hp
    exact takeReq_of_decode (encodeWrite_head hb) (decodeWrite_encode hp (by omega) (by omega) hb)
  | get t ks =>
    obtain ⟨ht, hne, -, hk⟩ := hp
    have hk' : ∀ k ∈ ks, PlainKey k q.length := by rw [hq]; exact hk
    have hnl : ∀ c ∈ ks.flatMap (fun k => chSpace :: k), c ≠ chNl := by
      intro c hc
      obtain ⟨k, hk1, hk2⟩ := List.mem_flatMap.1 hc
      exact mem_space (plainKey_nl (hk k hk1)) c hk2
    have he : Ends (ks.flatMap (fun k => chSpace :: k) ++ [chNl]) := by
      cases ks with
      | nil => exact absurd rfl hne
      | cons k ks => exact ends_space _
    have hb := Option.some.inj hb
    rcases ht with rfl | rfl
    · rw [← hb, if_neg (by decide), takeReq_word (by decide) (by decide) (by decide) (by decide) hnl he
        (by rw [hf]; decide) (by decide), if_pos rfl]
      exact takeGet_ok (by omega) hne hk'
    · rw [← hb, if_pos rfl, takeReq_word (by decide) (by decide) (by decide) (by decide) hnl he
        (by rw [hf]; decide) (by decide), if_neg (by decide), if_pos rfl]
      exact takeGet_ok (by omega) hne hk'
  | ping =>
    rw [← Option.some.inj hb, show ascii "ping\r\n" = ascii "ping" ++ [] ++ crlf from by decide,
      takeReq_word (by decide) (by decide) (by decide) (by decide) (by simp) (ends_nl _)
        (by rw [hf]; decide) (by decide), if_neg (by decide), if_neg (by decide), if_pos rfl]
    exact takeBare_ok (by omega)
  | version =>
    rw [← Option.some.inj hb, show ascii "version\r\n" = ascii "version" ++ [] ++ crlf from by decide,
      takeReq_word (by decide) (by decide) (by decide) (by decide) (by simp) (ends_nl _)
        (by rw [hf]; decide) (by decide), if_neg (by decide), if_neg (by decide), if_neg (by decide), if_pos rfl]
    exact takeBare_ok (by omega)
  | quit =>
    rw [← Option.some.inj hb, show ascii "quit\r\n" = ascii "quit" ++ [] ++ crlf from by decide,
      takeReq_word (by decide) (by decide) (by decide) (by decide) (by simp) (ends_nl _)
        (by rw [hf]; decide) (by decide), if_neg (by decide), if_neg (by decide), if_neg (by decide),
      if_neg (by decide), if_pos rfl]
    exact takeBare_ok (by omega)
  | verbosity n noreply =>
    have ho : ∀ c ∈ (if noreply then chSpace :: strNoreply else []), c ≠ chNl := by
      cases noreply <;> decide
    have hnl := mem_app (mem_space (decimalInt_ne_nl n)) ho
    rw [← Option.some.inj hb, show ascii "verbosity" ++ chSpace :: decimalInt n ++
        (if noreply then chSpace :: strNoreply else []) ++ crlf = ascii "verbosity" ++ (chSpace :: decimalInt n ++
        (if noreply then chSpace :: strNoreply else [])) ++ crlf from by simp,
      takeReq_word (by decide) (by decide) (by decide) (by decide) hnl (ends_space _)
        (by rw [hf]; decide) (by decide), if_neg (by decide), if_neg (by decide), if_neg (by decide),
      if_neg (by decide), if_neg (by decide), if_pos rfl, List.append_assoc]
    exact takeVerbosity_ok (by omega) hp.1 hp.2 noreply
  | flush noreply =>
    have ho : ∀ c ∈ (if noreply then chSpace :: strNoreply else []), c ≠ chNl := by
      cases noreply <;> decide
    rw [← Option.some.inj hb, takeReq_word (by decide) (by decide) (by decide) (by decide) ho
        (by cases noreply
            · exact ends_nl _
            · exact ends_space _)
        (by rw [hf]; decide) (by decide), if_neg (by decide), if_neg (by decide), if_neg (by decide),
      if_neg (by decide), if_neg (by decide), if_neg (by decide), if_pos rfl]
    exact takeFlush_ok (by omega) noreply

/-! ### Reading answers -/

theorem readReply_line {now : Int64} {w q s rest : Bytes} {r : SReq} {x : OpResult × Bytes}
    (hs : r.silent = false) (hr : readResponse q s = .ok (x, rest)) (hg : ∀ t ks, r ≠ .get t ks)
    (hv : r ≠ .version) (ha : ∀ y, r = .write y → y.cmd = .gat → ∀ e t, readAnswer now w q s ≠ .ok (.value e t))
    (hc : ∀ y, r = .write y → y.cmd.kind = .count → ∀ l t, readLine s = some (l, t) →
      isUnsignedString l.dropLast = false) :
    readReply now w q r s = .ok (.result x.1 x.2, rest) := by
  have hl : ∃ l t, readLine s = some (l, t) := by
    simp only [readResponse] at hr
    cases h : readLine s with
    | none => simp [h] at hr
    | some y => exact ⟨y.1, y.2, rfl⟩
  obtain ⟨l, t, hl⟩ := hl
  simp only [readReply, hs, Bool.false_eq_true, if_false, hr, Except.map]
  cases r with
  | get t ks => exact absurd rfl (hg t ks)
  | version => exact absurd rfl hv
  | write y =>
    simp only
    by_cases h1 : y.cmd = .gat
    · rw [if_pos h1]
      cases h2 : readAnswer now w q s with
      | error f => rfl
      | ok a =>
        cases a with
        | fin rest => rfl
        | value e t => exact absurd h2 (ha y rfl h1 e t)
    · rw [if_neg h1]
      by_cases h2 : y.cmd.kind = .count
      · rw [if_pos h2]
        simp only [hl, hc y rfl h2 l t hl, Bool.false_eq_true, if_false]
      · rw [if_neg h2]
  | _ => rfl

theorem resultLine_shape {r : OpResult} {m : Bytes} (hr : r ≠ .none_ ∨ m = []) (hm : PlainMessage m) :
    ∃ l, resultLine r m = l ++ crlf ∧ (∀ c ∈ l, c ≠ chNl) ∧
      (r ≠ .none_ ∧ r.name ++ [chSpace] <+: l ∨ l = r.name) := by
  have hc : cstr m = m := by
    have := List.takeWhile_append_of_pos (p := fun c : UInt8 => decide (c ≠ 0)) (l₁ := m)
      (l₂ := []) (fun c hc => by simpa using (hm.1 c hc).1)
    simpa [cstr] using this
  have hname : ∀ c ∈ r.name, c ≠ chNl := by cases r <;> decide
  by_cases he : m = []
  · refine ⟨r.name, by simp [resultLine, he, cstr], hname, .inr rfl⟩
  · refine ⟨r.name ++ [chSpace] ++ m, by simp [resultLine, hc, he], ?_, .inl ⟨hr.resolve_right he, m, rfl⟩⟩
    refine noNl_append (noNl_append hname (by decide)) fun c h => (hm.1 c h).2

/-- A line with a result is neither a number nor a value. -/
theorem resultLine_other {now : Int64} {w q : Bytes} {r : OpResult} {m more : Bytes} (hr : r ≠ .none_ ∨ m = [])
    (hm : PlainMessage m) (hw : 32 ≤ w.length) :
    (∀ l t, readLine (resultLine r m ++ more) = some (l, t) → isUnsignedString l.dropLast = false) ∧
    ∀ e t, readAnswer now w q (resultLine r m ++ more) ≠ .ok (.value e t) := by
  obtain ⟨l, h1, h2, h3⟩ := resultLine_shape hr hm
  have hl : readLine (resultLine r m ++ more) = some (l ++ [chNl], more) := by
    rw [h1]; exact readLine_crlf h2
  refine ⟨?_, ?_⟩
  · intro l' t h
    rw [hl] at h
    cases h
    rw [List.dropLast_concat]
    have hno : r ≠ .none_ → r.name ≠ [] := by cases r <;> decide
    by_cases hr : r.name = []
    · rcases h3 with ⟨h, -⟩ | rfl
      · exact absurd hr (hno h)
      · rw [hr]; rfl
    · have hh : ∃ c t, r.name = c :: t ∧ isDigit c = false := by
        cases r <;> first | exact absurd rfl hr | exact ⟨_, _, rfl, by decide⟩
      obtain ⟨c, t, e, hd⟩ := hh
      rcases h3 with ⟨-, x, rfl⟩ | rfl
      · simp [isUnsignedString, e, hd]
      · simp [isUnsignedString, e, hd]
  · intro e t
    simp only [readAnswer, hl]
    split
    · intro h; cases h
    · have hword : ∃ q' : Bytes × Bytes, scanWord (l ++ [chNl]) w = .ok (q'.1, q'.2) ∧ cstr q'.2 ≠ strValue := by
        have hn : (∀ x ∈ r.name, wordChar x = true) ∧ r.name.length ≤ 12 ∧ r.name ≠ strValue := by
          cases r <;> decide
        by_cases hr : r.name = []
        · rcases h3 with ⟨h, -⟩ | rfl
          · exact absurd hr ((by cases r <;> decide : r ≠ .none_ → r.name ≠ []) h)
          · rw [hr]
            obtain ⟨q', a, b, -⟩ := scanWord_tok (w := []) (c := chNl) (rest := []) (q := w) 0 (by simp)
              (by decide) (by simp; omega) (fun _ => by decide)
            exact ⟨(_, q'), by simpa using a, by rw [b]; decide⟩
        · have he : ∃ u, l ++ [chNl] = r.name ++ u ∧ Ends u := by
            rcases h3 with ⟨-, x, rfl⟩ | rfl
            · exact ⟨chSpace :: (x ++ [chNl]), by simp, ends_space _⟩
            · exact ⟨[chNl], rfl, ends_nl _⟩
          obtain ⟨u, hu, he⟩ := he
          obtain ⟨q', a, b, -⟩ := scanWord_first (q := w) hn.1 hr he (by omega)
          exact ⟨(_, q'), by rw [hu]; exact a, by rw [b]; exact hn.2.2⟩
      obtain ⟨q', a, b⟩ := hword
      simp only [a, if_pos b]
      intro h; cases h

/-- A line with a result is read as that. -/
theorem line_reads {now : Int64} {w q more : Bytes} {r : SReq} {x : OpResult} {m : Bytes}
    (hw : w.length = 8192) (hq : q.length = 8192) (hs : r.silent = false) (hg : ∀ t ks, r ≠ .get t ks)
    (hv : r ≠ .version) (hr : x ≠ .none_ ∨ m = []) (hm : PlainMessage m) :
    readReply now w q r (resultLine x m ++ more) = .ok (.result x m, more) := by
  have h := resultLine_other (now := now) (w := w) (q := q) (more := more) hr hm (by omega)
  exact readReply_line hs (C59_answer hr hm (by omega)) hg hv (fun _ _ _ => h.2) (fun _ _ _ => h.1)

theorem plainMessage_nil : PlainMessage [] := ⟨by simp, by simp⟩

theorem number_reads {now : Int64} {w q more n : Bytes} {r : WriteReq} (hs : (SReq.write r).silent = false)
    (hc : r.cmd.kind = .count) (hn : isUnsignedString n = true) :
    readReply now w q (.write r) (n ++ crlf ++ more) = .ok (.number (decValue n), more) := by
  have hnl : ∀ c ∈ n, c ≠ chNl := by
    intro c h
    simp only [isUnsignedString, Bool.and_eq_true, List.all_eq_true] at hn
    have := hn.2 c h
    intro e
    rw [e] at this
    exact absurd this (by decide)
  have hg : r.cmd ≠ .gat := by intro h; rw [h] at hc; exact absurd hc (by decide)
  simp only [readReply, hs, Bool.false_eq_true, if_false, if_neg hg, if_pos hc, readLine_crlf hnl,
    List.dropLast_concat, hn, if_true]

theorem value_reads {now : Int64} {w q more b : Bytes} {r : WriteReq} {e : Entry} (hw : w.length = 8192)
    (hq : q.length = 8192) (hs : (SReq.write r).silent = false) (hc : r.cmd = .gat)
    (he : PlainKey e.key 8192) (hb : response .get e = some b) :
    readReply now w q (.write r) (b ++ more) = .ok (.values [shown .get now e], more) := by
  have h := C34_answer now w q hw hq .get e he b more hb
  simp only [readReply, hs, Bool.false_eq_true, if_false, if_pos hc, h]
  rfl

theorem takeWhile_number {n : Bytes} (hn : isUnsignedString n = true) : (n ++ crlf).takeWhile isDigit = n := by
  rw [isUnsignedString, Bool.and_eq_true, List.all_eq_true] at hn
  rw [List.takeWhile_append_of_pos hn.2]
  have : crlf.takeWhile isDigit = [] := by decide
  rw [this, List.append_nil]

/-- `sendResult` of a write with an answer, outside `incr` and `decr`. -/
theorem sendResult_reads {now : Int64} {w q more : Bytes} {r : WriteReq} {x : OpResult} {m : Bytes}
    {e : Option Entry} (hw : w.length = 8192) (hq : q.length = 8192) (hs : (SReq.write r).silent = false)
    (hc : ¬ (r.cmd.kind = .count ∧ x = .stored)) (hr : x ≠ .none_ ∨ m = []) (hm : PlainMessage m)
    (hv : r.cmd = .gat → x = .touched → ∀ y, e = some y → SoundValue .get y) :
    ∃ b, sendResult r.cmd x m e = some b ∧ readReply now w q (.write r) (b ++ more) =
      .ok (if r.cmd = .gat ∧ x = .touched then
        (e.elim (.result x m) fun e => .values [shown .get now e]) else .result x m, more) := by
  have hline := line_reads (now := now) (more := more) (r := .write r) hw hq hs
    (by intro t ks h; cases h) (by intro h; cases h) hr hm
  by_cases hgat : r.cmd = .gat ∧ x = .touched
  · rw [if_pos hgat]
    cases e with
    | none => exact ⟨_, by rw [hgat.1, hgat.2]; rfl, by rw [← hgat.2]; exact hline⟩
    | some y =>
      obtain ⟨h1, h2⟩ := hv hgat.1 hgat.2 y rfl
      obtain ⟨b, hb⟩ := Option.isSome_iff_exists.1 h2
      exact ⟨b, by rw [hgat.1, hgat.2]; exact hb, value_reads hw hq hs hgat.1 h1 hb⟩
  · rw [if_neg hgat]
    refine ⟨_, ?_, hline⟩
    generalize hcmd : r.cmd = c at hc hgat ⊢
    have h2 : ¬ (c = .incr ∧ x = .stored) := fun h => hc ⟨by rw [h.1]; rfl, h.2⟩
    have h3 : ¬ (c = .decr ∧ x = .stored) := fun h => hc ⟨by rw [h.1]; rfl, h.2⟩
    clear hcmd hline hs hc hr hm hv
    cases c <;> cases x <;> cases e <;>
      first
        | (simp only [sendResult]; done)
        | exact absurd ⟨rfl, rfl⟩ hgat
        | exact absurd ⟨rfl, rfl⟩ h2
        | exact absurd ⟨rfl, rfl⟩ h3

theorem write_reads {now : Int64} {w q more : Bytes} {r : WriteReq} {d : Done} (hw : w.length = 8192)
    (hq : q.length = 8192) (hd : d.Sound r.cmd) (hl : Did.loud (.write r) (.wrote d) = false) :
    ∃ b, writeAnswer r d = some b ∧
      readReply now w q (.write r) (b ++ more) = .ok ((SReq.write r).reply now (.wrote d), more) := by
  by_cases hs : (SReq.write r).silent = true
  · -- no answer
    have ho : r.entry.option &&& optNoreply ≠ 0 := by simpa [SReq.silent] using hs
    have hbytes : writeAnswer r d = some [] := by
      cases d with
      | noQueue => simp [Did.loud, ho] at hl
      | noPartition => simp [Did.loud, ho] at hl
      | sent ok x m e => simp only [writeAnswer, if_pos ho]
      | own o =>
        obtain ⟨rc, res, e⟩ := o
        obtain ⟨h1, h2⟩ := hd
        cases rc with
        | ub => exact absurd rfl h1
        | err => simp [Did.loud, ho] at hl
        | ok =>
          obtain ⟨x, hx, -⟩ := h2 rfl
          simp only at hx
          subst hx
          simp only [writeAnswer, if_pos ho]
    refine ⟨[], hbytes, ?_⟩
    simp only [readReply, SReq.reply, hs, if_true, List.nil_append]
  · have hs : (SReq.write r).silent = false := by simpa using hs
    have ho : ¬ (r.entry.option &&& optNoreply ≠ 0) := by simpa [SReq.silent] using hs
    have hrep : (SReq.write r).reply now (.wrote d) = d.reply now r.cmd := by
      simp only [SReq.reply, hs, Bool.false_eq_true, if_false]
    rw [hrep]
    have hline : ∀ (x : OpResult) (m : Bytes), (x ≠ .none_ ∨ m = []) → PlainMessage m →
        readReply now w q (.write r) (resultLine x m ++ more) = .ok (.result x m, more) := fun x m =>
      line_reads hw hq hs (by intro t ks h; cases h) (by intro h; cases h)
    cases d with
    | noQueue => exact ⟨_, rfl, hline _ _ (.inl (by decide)) ⟨by decide, by decide⟩⟩
    | noPartition => exact ⟨_, rfl, hline _ _ (.inl (by decide)) ⟨by decide, by decide⟩⟩
    | sent ok x m e =>
      cases ok with
      | false =>
        exact ⟨_, by simp only [writeAnswer, if_neg ho, Bool.not_false, if_true],
          hline _ _ (.inl (by decide)) ⟨by decide, by decide⟩⟩
      | true =>
        have hd := hd rfl
        simp only [writeAnswer, if_neg ho, Bool.not_true, Bool.false_eq_true, if_false, Done.reply]
        by_cases hc : r.cmd.kind = .count ∧ x = .stored
        · rw [if_pos hc] at hd
          rw [if_pos hc, if_pos hc]
          obtain ⟨n, h1, rfl⟩ := hd
          refine ⟨_, rfl, ?_⟩
          rw [takeWhile_number h1]
          exact number_reads hs hc.1 h1
        · rw [if_neg hc] at hd
          rw [if_neg hc, if_neg hc]
          obtain ⟨h1, h2, h3⟩ := hd
          by_cases hk : r.cmd.kind = .count
          · rw [if_pos hk, if_neg (by intro h; rw [h.1] at hk; exact absurd hk (by decide))]
            exact ⟨_, rfl, hline _ _ h1 h2⟩
          · rw [if_neg hk]
            obtain ⟨b, h4, h5⟩ := sendResult_reads (now := now) (more := more) hw hq hs hc h1 h2 h3
            refine ⟨b, h4, ?_⟩
            rw [h5]
            cases e <;> rfl
    | own o =>
      obtain ⟨rc, res, e⟩ := o
      obtain ⟨h1, h2⟩ := hd
      cases rc with
      | ub => exact absurd rfl h1
      | err => exact ⟨_, rfl, hline _ _ (.inl (by decide)) ⟨by decide, by decide⟩⟩
      | ok =>
        obtain ⟨x, hx, h3, h4⟩ := h2 rfl
        simp only at hx h3 h4
        subst hx
        simp only [writeAnswer, if_neg ho, Done.reply]
        have ht : ∀ a : Result, (x = .stored ↔ x.toOp = .stored) ∧ (x = .touched ↔ x.toOp = .touched) := by
          intro _; cases x <;> decide
        obtain ⟨t1, t2⟩ := ht .stored
        by_cases hc : r.cmd.kind = .count ∧ x = .stored
        · rw [if_pos hc]
          obtain ⟨h5, h6⟩ := h3 hc.1 hc.2
          have hsend : sendResult r.cmd x.toOp [] (some e) = some (e.data.take e.size.toNat ++ crlf) := by
            have hk := hc.1
            rw [hc.2]
            generalize r.cmd = c at hk
            cases c <;> first | (cases hk; done) |
              (show (if e.size.toNat + 2 < 8192 then _ else _) = _; rw [if_pos h6])
          exact ⟨_, hsend, number_reads hs hc.1 h5⟩
        · rw [if_neg hc]
          have hc' : ¬ (r.cmd.kind = .count ∧ x.toOp = .stored) := fun h => hc ⟨h.1, t1.2 h.2⟩
          obtain ⟨b, h5, h6⟩ := sendResult_reads (now := now) (more := more) (e := some e) (m := []) hw hq hs hc'
            (.inr rfl) plainMessage_nil (fun a b y hy => by cases hy; exact h4 a (t2.2 b))
          refine ⟨b, h5, ?_⟩
          rw [h6]
          simp only [t2, Option.elim]

theorem readAnswer_shorter {now : Int64} {w q s : Bytes} {e : Entry} {rest : Bytes}
    (h : readAnswer now w q s = .ok (.value e rest)) : rest.length < s.length := by
  simp only [readAnswer] at h
  cases hl : readLine s with
  | none => simp [hl] at h
  | some x =>
    obtain ⟨line, s1⟩ := x
    obtain ⟨x, hx, -⟩ := readLine_rest hl
    have hlt : s1.length < s.length := by rw [hx]; simp; omega
    simp only [hl] at h
    split at h
    · exact nomatch h
    · cases hw : scanWord line w with
      | error f => simp [hw] at h
      | ok y =>
        simp only [hw] at h
        split at h
        · exact nomatch h
        · cases he : entryParse now .get y.1 q { key := [] } with
          | error f => simp [he] at h
          | ok e =>
            simp only [he] at h
            cases hz : readSize (e.size.toNat + 2) s1 with
            | error f => simp [hz] at h
            | ok z =>
              obtain ⟨d, s2⟩ := z
              simp only [hz, Except.ok.injEq, Answer.value.injEq] at h
              simp only [readSize] at hz
              split at hz
              · exact nomatch hz
              · split at hz
                · exact nomatch hz
                · simp only [Except.ok.injEq, Prod.mk.injEq] at hz
                  rw [← h.2, ← hz.2, List.length_drop]
                  omega

theorem readAnswers_fuel {now : Int64} {w q : Bytes} {n : Nat} {s : Bytes} {x : List Entry × Bytes}
    (h : readAnswers now w q n s = .ok x) (m : Nat) (hm : s.length < m) : readAnswers now w q m s = .ok x := by
  induction n generalizing s x m with
  | zero => exact nomatch h
  | succ n ih =>
    cases m with
    | zero => omega
    | succ m =>
      simp only [readAnswers] at h ⊢
      cases ha : readAnswer now w q s with
      | error f => simp [ha] at h
      | ok a =>
        cases a with
        | fin rest => simpa [ha] using h
        | value e rest =>
          have hlt := readAnswer_shorter ha
          simp only [ha] at h ⊢
          cases hr : readAnswers now w q n rest with
          | error f => simp [hr] at h
          | ok y =>
            simp only [hr] at h
            simp only [ih hr m (by omega), h]

theorem readKeys_keys {σ : Type} (B : Back σ) (st : σ) (ks : List Bytes) :
    (readKeys B st ks).2.map (·.1) = ks := by
  induction ks generalizing st with
  | nil => rfl
  | cons k ks ih => simp [readKeys, ih]

theorem arrives_cmd (now : Int64) (r : WriteReq) : (arrives now r).cmd = r.cmd := by
  unfold arrives
  split <;> rfl

theorem arrives_silent (now : Int64) (r : WriteReq) :
    (SReq.write (arrives now r)).silent = (SReq.write r).silent := by
  unfold arrives
  simp only [SReq.silent]
  split <;> simp [UInt32.and_assoc]

theorem readReply_seen {now : Int64} {w q s : Bytes} {r : SReq} :
    readReply now w q (r.seen now) s = readReply now w q r s := by
  cases r with
  | write r => simp only [SReq.seen, readReply, arrives_silent, arrives_cmd]
  | _ => rfl

theorem reply_seen {now : Int64} {r : SReq} {d : Did} : (r.seen now).reply now d = r.reply now d := by
  cases r with
  | write r =>
    simp only [SReq.seen, SReq.reply, arrives_silent]
    cases d <;> simp only [arrives_cmd]
  | _ => rfl

/-- What is sent for a request is read as what was done. -/
theorem answer_reads {σ : Type} (B : Back σ) {now : Int64} {w q more : Bytes} {r : SReq} {st : σ}
    (hw : w.length = 8192) (hq : q.length = 8192) (hp : r.Proper)
    (hd : Did.Sound (r.seen now) (perform B st (r.seen now)).2)
    (hl : Did.loud (r.seen now) (perform B st (r.seen now)).2 = false) :
    ∃ b, answer (r.seen now) (perform B st (r.seen now)).2 = some b ∧
      readReply now w q r (b ++ more) = .ok (r.reply now (perform B st (r.seen now)).2, more) := by
  have line : ∀ (r : SReq) (x : OpResult) (m : Bytes), r.silent = false → (∀ t ks, r ≠ .get t ks) →
      r ≠ .version → x ≠ .none_ → PlainMessage m →
      readReply now w q r (resultLine x m ++ more) = .ok (.result x m, more) :=
    fun r x m h1 h2 h3 h4 h5 => line_reads hw hq h1 h2 h3 (.inl h4) h5
  cases r with
  | write r =>
    obtain ⟨b, h1, h2⟩ := write_reads (now := now) (w := w) (q := q) (more := more)
      (r := arrives now r) hw hq hd hl
    refine ⟨b, h1, ?_⟩
    rw [← readReply_seen, ← reply_seen]
    exact h2
  | get t ks =>
    obtain ⟨b, h1, h2⟩ := C64_answers t now w q hw hq (readKeys B st ks).2
      (by rw [readKeys_keys]; exact hp.2.2.1) hd more _ (Nat.lt_succ_self _)
    refine ⟨b, h1, ?_⟩
    have h3 := readAnswers_fuel h2 ((b ++ more).length + 1) (Nat.lt_succ_self _)
    simp only [readReply, SReq.silent, Bool.false_eq_true, if_false, h3, Except.map]
    rfl
  | ping =>
    simp only [SReq.seen, perform] at hd ⊢
    cases h : (B.status st).2 with
    | none =>
      exact ⟨_, rfl, line .ping .ok [] rfl (fun _ _ h => by cases h) (fun h => by cases h) (by decide)
        plainMessage_nil⟩
    | some m =>
      rw [h] at hd
      exact ⟨_, rfl, line .ping .serverError m rfl (fun _ _ h => by cases h) (fun h => by cases h)
        (by decide) hd⟩
  | version =>
    refine ⟨versionLine, rfl, ?_⟩
    have : readLine (versionLine ++ more) = some (ascii "VERSION flare-1.3.4" ++ [chNl], more) := by
      rw [show versionLine = ascii "VERSION flare-1.3.4" ++ crlf from by decide]
      exact readLine_crlf (by decide)
    simp only [readReply, SReq.silent, Bool.false_eq_true, if_false, this]
    rw [if_pos (by decide)]
    rfl
  | verbosity n noreply =>
    cases noreply with
    | true => exact ⟨[], rfl, rfl⟩
    | false =>
      exact ⟨_, rfl, line (.verbosity n false) .ok [] rfl (fun _ _ h => by cases h) (fun h => by cases h)
        (by decide) plainMessage_nil⟩
  | flush noreply =>
    simp only [SReq.seen, perform]
    cases noreply with
    | true => exact ⟨[], rfl, rfl⟩
    | false =>
      cases h : (B.flush st).2 with
      | true =>
        exact ⟨_, rfl, line (.flush false) .ok [] rfl (fun _ _ h => by cases h) (fun h => by cases h)
          (by decide) plainMessage_nil⟩
      | false =>
        exact ⟨_, rfl, line (.flush false) .serverError (ascii "unknown error") rfl (fun _ _ h => by cases h)
          (fun h => by cases h) (by decide) ⟨by decide, by decide⟩⟩
  | quit =>
    exact ⟨_, rfl, line .quit .end_ [] rfl (fun _ _ h => by cases h) (fun h => by cases h) (by decide)
      plainMessage_nil⟩

/-! ### The session -/

theorem Talk.after_after {σ : Type} (d d' : List (SReq × Did)) (b b' : Bytes) (t : Talk σ) :
    (t.after d' b').after d b = t.after (d ++ d') (b ++ b') := by
  simp [Talk.after]

theorem seen_quit {now : Int64} {r : SReq} : r.seen now = .quit ↔ r = .quit := by
  cases r <;> simp [SReq.seen]

/-- A session that begins with proper requests carries them out and goes on with what follows. -/
theorem session_proper {σ : Type} (B : Back σ) {now : Int64} {first q w v : Bytes} (hf : first.length = 1024)
    (hq : q.length = 8192) (hw : w.length = 8192) (hv : v.length = 8192) (rs : List SReq) (bs : List Bytes)
    (hp : ∀ r ∈ rs, r.Proper) (hx : ∀ r ∈ rs, r ≠ .quit) (hb : rs.map encodeReq = bs.map some) (st : σ)
    (hd : ∀ x ∈ (performAll B st (rs.map (SReq.seen now))).2, Did.Sound x.1 x.2 ∧ Did.loud x.1 x.2 = false)
    (more : Bytes) (n : Nat) :
    ∃ out, session B now first q (rs.length + n) st (bs.flatten ++ more) =
        (session B now first q n (performAll B st (rs.map (SReq.seen now))).1 more).after
          (performAll B st (rs.map (SReq.seen now))).2 out ∧
      ∀ rest, readReplies now w v rs (out ++ rest) = .ok (List.zipWith (fun r d => r.reply now d.2) rs
        (performAll B st (rs.map (SReq.seen now))).2, rest) := by
  induction rs generalizing bs st with
  | nil =>
    cases bs with
    | cons b bs => simp at hb
    | nil => exact ⟨[], by simp [performAll, Talk.after], fun rest => rfl⟩
  | cons r rs ih =>
    cases bs with
    | nil => simp at hb
    | cons b bs =>
      simp only [List.map_cons, List.cons.injEq] at hb
      simp only [List.map_cons, performAll] at hd ⊢
      obtain ⟨st1, e1⟩ : ∃ x, x = perform B st (r.seen now) := ⟨_, rfl⟩
      have hd1 := hd (r.seen now, st1.2) (by rw [e1]; exact List.mem_cons_self)
      obtain ⟨out, h1, h2⟩ := ih bs (fun x h => hp x (List.mem_cons_of_mem _ h))
        (fun x h => hx x (List.mem_cons_of_mem _ h)) hb.2 st1.1
        (fun x h => hd x (by rw [← e1]; exact List.mem_cons_of_mem _ h))
      have key := fun more => answer_reads B (now := now) (w := w) (q := v) (more := more) (r := r) (st := st) hw hv
        (hp r List.mem_cons_self) (by rw [← e1]; exact hd1.1) (by rw [← e1]; exact hd1.2)
      obtain ⟨a, h3, -⟩ := key []
      have ht := takeReq_encode (now := now) (more := bs.flatten ++ more) hf hq (hp r List.mem_cons_self) hb.1
      refine ⟨a ++ out, ?_, ?_⟩
      · rw [List.length_cons, show rs.length + 1 + n = (rs.length + n) + 1 by omega, List.flatten_cons,
          List.append_assoc]
        have hnq : ¬ r.seen now = .quit := fun h => hx r List.mem_cons_self (seen_quit.1 h)
        simp only [session, ht, ← e1]
        rw [← e1] at h3
        simp only [h3, if_neg hnq, h1, Talk.after_after, List.singleton_append]
      · intro rest
        obtain ⟨a', h4, h5⟩ := key (out ++ rest)
        rw [h3] at h4
        cases h4
        simp only [readReplies, List.append_assoc, h5, ← e1, h2 rest, Except.map, List.zipWith_cons_cons]

/-! ### Lines of writes -/

theorem takeReq_line {now : Int64} {first q : Bytes} {path : List Bytes} {cmd : WriteCmd} {t more : Bytes}
    (hp : PlainPath path) (hf : 8 ≤ first.length) (ht : ∀ c ∈ t, c ≠ chNl) (he : Ends (t ++ [chNl])) :
    takeReq now first q (proxyIdent path ++ cmd.ident ++ t ++ crlf ++ more) =
      takeWrite now cmd path (t ++ [chNl]) q more := by
  have hid := ident_facts cmd
  have h1 : readLine (proxyIdent path ++ cmd.ident ++ t ++ crlf ++ more) =
      some (proxyIdent path ++ cmd.ident ++ t ++ [chNl], more) := by
    apply readLine_crlf
    intro c hc
    simp only [List.mem_append] at hc
    rcases hc with (hc | hc) | hc
    · exact proxyIdent_ne_nl hp c hc
    · exact wordChar_ne_nl (hid.1 c hc)
    · exact ht c hc
  obtain ⟨o, h2, h3⟩ := parseServer_ok (cmd := cmd) hp he hf
  rw [show proxyIdent path ++ cmd.ident ++ (t ++ [chNl]) =
    proxyIdent path ++ cmd.ident ++ t ++ [chNl] by simp] at h2
  have hh : (proxyIdent path ++ cmd.ident ++ t ++ crlf ++ more).head? ≠ some 0x80 := by
    by_cases hp : path = []
    · rw [hp]
      cases cmd <;> simp [proxyIdent, WriteCmd.ident]
    · simp [proxyIdent, hp, chLt]
  simp only [takeReq, if_neg hh, h1, h2, hid.2.2.2.2, h3]

/-- The two bytes behind a value are not looked at. -/
theorem parseParams_swap {now : Int64} {cmd : WriteCmd} {path : List Bytes} {line q d more : Bytes} {u v : UInt8}
    {r : WriteReq} (hk : cmd.kind = .store)
    (h : parseParams now cmd path line q (d ++ [u, v] ++ more) = .ok (r, more)) (x y : UInt8) :
    parseParams now cmd path line q (d ++ [x, y] ++ more) = .ok (r, more) := by
  simp only [parseParams, hk] at h ⊢
  cases he : entryParse now (if cmd = .cas then .cas else .set) line q { key := [] } with
  | error f => rw [he] at h; cases h
  | ok e =>
    rw [he] at h
    simp only [readSize] at h ⊢
    have hl : ∀ a b : UInt8, (d ++ [a, b] ++ more).length = d.length + 2 + more.length := by
      intro a b; simp; omega
    rw [hl] at h ⊢
    by_cases h1 : e.size.toNat + 2 > intMax
    · rw [if_pos h1] at h; cases h
    · rw [if_neg h1] at h ⊢
      by_cases h2 : d.length + 2 + more.length < e.size.toNat + 2
      · rw [if_pos h2] at h; cases h
      · rw [if_neg h2] at h ⊢
        simp only [Except.ok.injEq, Prod.mk.injEq] at h ⊢
        obtain ⟨h3, h4⟩ := h
        have h5 := congrArg List.length h4
        rw [List.length_drop, hl] at h5
        have h6 : e.size.toNat = d.length := by omega
        have cut : ∀ a b : UInt8, ((d ++ [a, b] ++ more).take (d.length + 2)).take d.length = d ∧
            (d ++ [a, b] ++ more).drop (d.length + 2) = more := by
          intro a b
          constructor
          · rw [List.take_take, Nat.min_eq_left (by omega), List.append_assoc, List.take_left]
          · rw [show d.length + 2 = (d ++ [a, b]).length by simp, List.drop_left]
        rw [h6] at h3 ⊢
        rw [(cut u v).1] at h3
        rw [(cut x y).1, (cut x y).2]
        exact ⟨h3, rfl⟩

end Flare
