import Verif.Props.Errand

/-! More property theorems about reads and writes that are handed on over one connection: C97. -/
namespace Flare

/-! ### Lemmas -/

/-- The line of an answer with a value, and what is read from it. -/
theorem responseLine_read {now : Int64} {t : ResponseType} {w q : Bytes} {e : Entry} (hk : PlainKey e.key q.length)
    (hq : 32 ≤ q.length) (hw : w.length = q.length) (hs : e.size.toNat ≤ maxDataSize) (s : Bytes) :
    ∃ line p w', readLine (responseLine t e ++ s) = some (line, s) ∧ line ≠ strEnd ++ [chNl] ∧
      line ≠ ascii "NOT_FOUND\n" ∧ scanWord line w = .ok (p, w') ∧ cstr w' = strValue ∧
      entryParse now .get p q { key := [] } = .ok { shown t now e with data := [] } := by
  have hkey := cstr_plain hk.word
  obtain ⟨tail, ht⟩ : ∃ tail : Bytes, tail = e.key ++ (chSpace :: decimal e.flag.toNat ++
      (chSpace :: decimal e.size.toNat ++
      ((if t = .gets ∨ t = .dump then chSpace :: decimal e.version.toNat else []) ++
        (if t = .dump then chSpace :: decimalInt e.expire.toInt else [])))) := ⟨_, rfl⟩
  have e1 : responseLine t e ++ s = (strValue ++ chSpace :: tail) ++ crlf ++ s := by
    rw [ht]; simp [responseLine, hkey]
  have hnl : ∀ c ∈ strValue ++ chSpace :: tail, c ≠ chNl := by
    rw [ht]
    refine mem_app (by decide) (mem_app (mem_space (plainKey_nl hk))
      (mem_app (mem_space (decimal_ne_nl _)) (mem_app (mem_space (decimal_ne_nl _)) (mem_app ?_ ?_))))
    · split
      · exact mem_space (decimal_ne_nl _)
      · simp
    · split
      · exact mem_space (decimalInt_ne_nl _)
      · simp
  obtain ⟨w', a1, b1, -⟩ := scanWord_tok (w := strValue) (c := chSpace) (q := w) (rest := tail ++ [chNl]) 0 (by decide)
    (by decide) (by
      have : strValue.length = 5 := rfl
      omega) (by decide)
  have hparse := entryParse_value (now := now) (t := t) hk hs hq
  refine ⟨(strValue ++ chSpace :: tail) ++ [chNl], chSpace :: (tail ++ [chNl]), w', ?_, ?_, ?_, ?_, b1, ?_⟩
  · rw [e1, readLine_crlf hnl]
  · intro h
    have := congrArg (fun l => l.head?) h
    simp [strValue, strEnd] at this
  · intro h
    have := congrArg (fun l => l.head?) h
    simp [strValue, ascii] at this
  · simpa using a1
  · have e2 : chSpace :: (tail ++ [chNl]) = chSpace :: e.key ++ (chSpace :: decimal e.flag.toNat ++
        (chSpace :: decimal e.size.toNat ++
        ((if t = .gets ∨ t = .dump then chSpace :: decimal e.version.toNat else []) ++
          ((if t = .dump then chSpace :: decimalInt e.expire.toInt else []) ++ [chNl])))) := by
      rw [ht]; simp
    rw [e2, hparse]
    simp [shown]

/-- `gat` takes the line of a value of another key, and does not understand it. -/
theorem gatClient_other {now : Int64} {t : ResponseType} {w q s : Bytes} {x : Entry} {r : WriteReq} (hg : r.cmd = .gat)
    (hk : PlainKey x.key q.length) (hq : 32 ≤ q.length) (hw : w.length = q.length) (hs : x.size.toNat ≤ maxDataSize)
    (hx : x.key ≠ r.entry.key) :
    writeClient now w q r (responseLine t x ++ s) = .error .err ∧ writeLeft now w q r (responseLine t x ++ s) = s := by
  obtain ⟨line, p, w', h1, -, h3, h4, h5, h6⟩ := responseLine_read (now := now) (t := t) hk hq hw hs s
  have hne : r.entry.key ≠ (shown t now x).key := fun h => hx h.symm
  constructor
  · rw [writeClient, if_pos hg, gatClient, h1]
    simp only [if_neg h3, h4, h5, ne_eq, not_true_eq_false, if_false, h6]
    rw [if_pos hne]
  · rw [writeLeft, if_neg, lineLeft, h1]
    rintro ⟨-, h⟩
    simp only [gatNamed, h1, h4, h5, h6] at h
    simp only [Bool.and_eq_true, decide_eq_true_eq] at h
    exact hne h.2

/-- Nor does it understand a line of one word that is neither VALUE nor NOT_FOUND. -/
theorem gatClient_word {now : Int64} {w q d s : Bytes} {r : WriteReq} (hg : r.cmd = .gat)
    (hd : ∀ c ∈ d, wordChar c = true) (hlen : d.length < w.length) (hv : d ≠ strValue) (hn : d ≠ ascii "NOT_FOUND") :
    writeClient now w q r (d ++ crlf ++ s) = .error .err ∧ writeLeft now w q r (d ++ crlf ++ s) = s := by
  have hnl : ∀ c ∈ d, c ≠ chNl := fun c hc h => by
    have := hd c hc
    rw [h] at this
    revert this; decide
  obtain ⟨w', h1, h2, -⟩ := scanWord_tok (w := d) (c := chNl) (rest := []) (q := w) 0 hd (by decide) hlen
    (fun _ => by decide)
  have h1' : scanWord (d ++ [chNl]) w = .ok ([chNl], w') := by simpa using h1
  have hne : d ++ [chNl] ≠ ascii "NOT_FOUND\n" := fun h =>
    hn (List.append_cancel_right (h.trans (by decide : ascii "NOT_FOUND\n" = ascii "NOT_FOUND" ++ [chNl])))
  constructor
  · rw [writeClient, if_pos hg, gatClient, readLine_crlf hnl]
    simp only [if_neg hne, h1', h2]
    rw [if_pos hv]
  · rw [writeLeft, if_neg, lineLeft, readLine_crlf hnl]
    rintro ⟨-, h⟩
    simp only [gatNamed, readLine_crlf hnl, h1', h2] at h
    simp [hv] at h

/-! ### What goes wrong -/

/-- The value is there in time, but the END behind it is late: the read is sent again, finds the END at once, and is
told the value of the first time, whatever the other node has read the second time; the second answer is left for those
who come after it. -/
theorem C97_late_end (P : ErrandBufs) (hP : P.Ok) (y : ResponseType) (q : Bytes) (he : (Errand.read y q).Proper)
    (v : Entry) (b : Bytes) (hv : v.key = q) (hb : response y v = some b) (k : Desk) (hk : k.wire = [])
    (t1 t2 : ErrandTry) (ts : List ErrandTry) (h1s : t1.sent = true) (h1b : t1.breaks = false)
    (h1t : t1.inTime = some b.length) (h2 : t2.Prompt) {s1 s2 : Store} {d1 d2 : ErrandDid} {a2 : Bytes}
    (e1 : errandServe P t1 (run k.store t1.before) (getRequest y q) = some (s1, d1, b ++ (strEnd ++ crlf)))
    (e2 : errandServe P t2 (run s1 t2.before) (getRequest y q) = some (s2, d2, a2)) :
    errandRun P (.read y q) maxRetry (t1 :: t2 :: ts) k (Errand.read y q).slot =
      ({ store := s2, wire := a2 },
       { ends := .got, slot := (Errand.read y q).slot.value (shown y t1.now v), did := [d1, d2] }) := by
  have hfull := readAnswer_value (now := t1.now) (q := P.q) (q' := P.w) (more := [])
    (by rw [hP.q, hv]; exact he.2) (by rw [hP.q]; decide) (by rw [hP.q, hP.w]) hb
  rw [List.append_nil] at hfull
  have hread : errandRead P t1.now b (Errand.read y q).slot (.read y q) =
      (.failed, (Errand.read y q).slot.value (shown y t1.now v), []) := by
    have hpos : 0 < b.length := by
      rcases Nat.eq_zero_or_pos b.length with h | h
      · rw [List.eq_nil_of_length_eq_zero h] at hfull
        cases hfull
      · exact h
    obtain ⟨n, hn⟩ : ∃ n, b.length + 1 = n + 1 + 1 := ⟨b.length - 1, by omega⟩
    simp only [errandRead]
    rw [hn, getClient_value hfull (by rw [← hv]; rfl)]
    simp only [getClient, readLine, List.takeWhile_nil, List.length_nil, List.drop_nil]
    rfl
  have r1 : errandTry P (.read y q) t1 k (Errand.read y q).slot =
      ({ store := s1, wire := strEnd ++ crlf },
       { ends := .failed, slot := (Errand.read y q).slot.value (shown y t1.now v), did := [d1] }) := by
    simp only [errandTry, h1s, Errand.bytes, Option.bind_some, e1, hk, List.nil_append, h1t, cutAt,
      List.take_left, List.drop_left, hread, h1b]
    simp
  have r2 : errandTry P (.read y q) t2 { store := s1, wire := strEnd ++ crlf }
      ((Errand.read y q).slot.value (shown y t1.now v)) =
      ({ store := s2, wire := a2 },
       { ends := .got, slot := (Errand.read y q).slot.value (shown y t1.now v), did := [d2] }) := by
    rw [prompt_try h2 rfl e2]
    simp only [errandRead, getClient, readLine_crlf (show ∀ c ∈ strEnd, c ≠ chNl by decide), if_true]
  rw [show maxRetry = 3 + 1 from rfl, errandRun_failed r1, errandRun_ends r2 (by simp)]
  rfl

/-- A read of `q` behind a late answer with a value of another key which was stored by someone who wanted this: the
node that has handed the read on copies from NULL (undefined behaviour; it crashes). -/
theorem C97_forged_crash (P : ErrandBufs) (hP : P.Ok) (y z : ResponseType) (q : Bytes) (he : (Errand.read y q).Proper)
    (x v : Entry) (b : Bytes) (hx : PlainKey x.key 8192) (hb : response z x = some b) (hl : x.data.length = x.size.toNat)
    (hv : v.key = q) (hvs : v.size.toNat ≤ maxDataSize) (hvl : intMax < v.size.toNat + 2) (hd : x.data = responseLine y v)
    (hq : x.key ≠ q) (k : Desk) (hk : k.wire = b ++ (strEnd ++ crlf)) (t1 t2 : ErrandTry) (ts : List ErrandTry)
    (h1 : t1.Prompt) (h2 : t2.Prompt) {s1 s2 : Store} {d1 d2 : ErrandDid} {a1 a2 : Bytes}
    (e1 : errandServe P t1 (run k.store t1.before) (getRequest y q) = some (s1, d1, a1))
    (e2 : errandServe P t2 (run s1 t2.before) (getRequest y q) = some (s2, d2, a2)) :
    (errandRun P (.read y q) maxRetry (t1 :: t2 :: ts) k (Errand.read y q).slot).2.ends = .ub := by
  have hb' := response_bytes hb hl
  obtain ⟨s, hs⟩ : ∃ s, s = crlf ++ (strEnd ++ crlf ++ a1) := ⟨_, rfl⟩
  have r1 : errandTry P (.read y q) t1 k (Errand.read y q).slot =
      ({ store := s1, wire := responseLine y v ++ s },
       { ends := .failed, slot := (Errand.read y q).slot, did := [d1] }) := by
    rw [prompt_try h1 rfl e1, hk, hb', hd]
    have : responseLine z x ++ (responseLine y v ++ crlf) ++ (strEnd ++ crlf) ++ a1 =
        responseLine z x ++ (responseLine y v ++ s) := by simp [hs]
    rw [this]
    simp only [errandRead, getClient_other (now := t1.now) (w := P.w) (q := P.q) (g := (Errand.read y q).slot)
      (by rw [hP.q]; exact hx) (by rw [hP.q]; decide) (by rw [hP.q, hP.w]) hb (fun h => hq h.symm)]
  obtain ⟨line, p, w', l1, l2, -, l4, l5, l6⟩ := responseLine_read (now := t2.now) (t := y) (w := P.w) (q := P.q) (e := v)
    (by rw [hP.q, hv]; exact he.2) (by rw [hP.q]; decide) (by rw [hP.q, hP.w]) hvs (s ++ a2)
  have hread : (errandRead P t2.now (responseLine y v ++ s ++ a2) (Errand.read y q).slot (.read y q)).1 = .ub := by
    rw [List.append_assoc]
    have hbig : readSize (v.size.toNat + 2) (s ++ a2) = .error .ub := by rw [readSize, if_pos hvl]
    simp only [errandRead, getClient, l1, if_neg l2, l4, l5, ne_eq, not_true_eq_false, if_false, l6]
    rw [if_neg (by rw [← hv]; simp [Errand.slot, shown])]
    simp only [shown, hbig, GetEnd.ofFault]
  have r2 : (errandTry P (.read y q) t2 { store := s1, wire := responseLine y v ++ s } (Errand.read y q).slot).2.ends = .ub := by
    rw [prompt_try h2 rfl e2]
    exact hread
  obtain ⟨kk, rr, hr⟩ : ∃ kk rr, errandTry P (.read y q) t2 { store := s1, wire := responseLine y v ++ s }
      (Errand.read y q).slot = (kk, rr) := ⟨_, _, rfl⟩
  rw [hr] at r2
  rw [show maxRetry = 3 + 1 from rfl, errandRun_failed r1, errandRun_ends hr (by rw [r2]; simp)]
  exact r2

/-- `gat` behind a late answer with a value of another key, of one word: carried out four times, and told what the
first time has given; the other three answers are left for those who come after it. -/
theorem C97_gat_four (P : ErrandBufs) (hP : P.Ok) (z : ResponseType) (r : WriteReq) (hg : r.cmd = .gat)
    (hp : (Errand.write r).Proper) (m : Bytes) (hm : encodeWrite r = some m) (x : Entry) (b : Bytes)
    (hx : PlainKey x.key 8192) (hb : response z x = some b) (hl : x.data.length = x.size.toNat)
    (hw : ∀ c ∈ x.data, wordChar c = true) (hlen : x.data.length < 8192) (hnv : x.data ≠ strValue)
    (hnf : x.data ≠ ascii "NOT_FOUND") (hne : x.key ≠ r.entry.key)
    (k : Desk) (hs : k.store.Ok) (hk : k.wire = b ++ (strEnd ++ crlf)) (t1 t2 t3 t4 : ErrandTry) (ts : List ErrandTry)
    (h1 : t1.Prompt) (h2 : t2.Prompt) (h3 : t3.Prompt) (h4 : t4.Prompt) {s1 s2 s3 s4 : Store} {o : Out}
    {d2 d3 d4 : ErrandDid} {a1 a2 a3 a4 : Bytes}
    (e1 : errandServe P t1 (run k.store t1.before) m = some (s1, .wrote (.own o), a1)) (ho : o.rc = .ok)
    (hof : o.e.size.toNat + 16384 ≤ intMax)
    (e2 : errandServe P t2 (run s1 t2.before) m = some (s2, d2, a2))
    (e3 : errandServe P t3 (run s2 t3.before) m = some (s3, d3, a3))
    (e4 : errandServe P t4 (run s3 t4.before) m = some (s4, d4, a4)) :
    ∃ d', errandRun P (.write r) maxRetry (t1 :: t2 :: t3 :: t4 :: ts) k (Errand.write r).slot =
      ({ store := s4, wire := a2 ++ a3 ++ a4 },
       { ends := .wrote d', slot := (Errand.write r).slot, did := [.wrote (.own o), d2, d3, d4] }) ∧
      (Errand.write r).right t4.now (.wrote (.own o)) (.wrote d') (Errand.write r).slot := by
  have hb' := response_bytes hb hl
  have hxs : x.size.toNat ≤ maxDataSize := by
    rw [← hl]
    have : maxDataSize = 2147483647 := rfl
    omega
  have hwl : P.w.length = P.q.length := by rw [hP.q, hP.w]
  have r1 : errandTry P (.write r) t1 k (Errand.write r).slot =
      ({ store := s1, wire := x.data ++ crlf ++ (strEnd ++ crlf ++ a1) },
       { ends := .failed, slot := (Errand.write r).slot, did := [.wrote (.own o)] }) := by
    rw [prompt_try (e := .write r) h1 hm e1, hk, hb']
    have : responseLine z x ++ (x.data ++ crlf) ++ (strEnd ++ crlf) ++ a1 =
        responseLine z x ++ (x.data ++ crlf ++ (strEnd ++ crlf ++ a1)) := by simp
    rw [this]
    have hval := gatClient_other (now := t1.now) (t := z) (w := P.w) (q := P.q) (x := x)
      (s := x.data ++ crlf ++ (strEnd ++ crlf ++ a1)) hg (by rw [hP.q]; exact hx) (by rw [hP.q]; decide) hwl hxs hne
    simp only [errandRead, hval.1, hval.2]
  have r2 : errandTry P (.write r) t2 { store := s1, wire := x.data ++ crlf ++ (strEnd ++ crlf ++ a1) }
      (Errand.write r).slot =
      ({ store := s2, wire := strEnd ++ crlf ++ (a1 ++ a2) },
       { ends := .failed, slot := (Errand.write r).slot, did := [d2] }) := by
    rw [prompt_try (e := .write r) h2 hm e2]
    have : x.data ++ crlf ++ (strEnd ++ crlf ++ a1) ++ a2 = x.data ++ crlf ++ (strEnd ++ crlf ++ (a1 ++ a2)) := by simp
    rw [this]
    have hval := gatClient_word (now := t2.now) (w := P.w) (q := P.q) (s := strEnd ++ crlf ++ (a1 ++ a2)) (r := r) hg hw
      (by rw [hP.w]; exact hlen) hnv hnf
    simp only [errandRead, hval.1, hval.2]
  have r3 : errandTry P (.write r) t3 { store := s2, wire := strEnd ++ crlf ++ (a1 ++ a2) } (Errand.write r).slot =
      ({ store := s3, wire := a1 ++ (a2 ++ a3) },
       { ends := .failed, slot := (Errand.write r).slot, did := [d3] }) := by
    rw [prompt_try (e := .write r) h3 hm e3]
    have : strEnd ++ crlf ++ (a1 ++ a2) ++ a3 = strEnd ++ crlf ++ (a1 ++ (a2 ++ a3)) := by simp
    rw [this]
    have hval := gatClient_word (now := t3.now) (w := P.w) (q := P.q) (d := strEnd) (s := a1 ++ (a2 ++ a3)) (r := r) hg
      (by decide) (by rw [hP.w]; decide) (by decide) (by decide)
    simp only [errandRead, hval.1, hval.2]
  have hsil : (Errand.write r).silent = true → a1 = [] := by
    intro h
    simp only [Errand.silent, hp.2.2 hg] at h
    exact absurd h (by decide)
  rcases own_write hP.first hP.q hP.w (run_ok hs t1.before) hp hm e1 hof hsil t4.now with ⟨d', w1, w2⟩ | ⟨-, -, -, h⟩
  · refine ⟨d', ?_, w2⟩
    have hmore := (writeClient_more (now := t4.now) (w := P.w) (q := P.q) (s := a1) (m := a2 ++ a3 ++ a4) (r := r)).1
      d' [] w1
    have r4 : errandTry P (.write r) t4 { store := s3, wire := a1 ++ (a2 ++ a3) } (Errand.write r).slot =
        ({ store := s4, wire := a2 ++ a3 ++ a4 },
         { ends := .wrote d', slot := (Errand.write r).slot, did := [d4] }) := by
      rw [prompt_try (e := .write r) h4 hm e4]
      have : a1 ++ (a2 ++ a3) ++ a4 = a1 ++ (a2 ++ a3 ++ a4) := by simp
      rw [this]
      simp only [errandRead, hmore, List.nil_append]
    rw [show maxRetry = 3 + 1 from rfl, errandRun_failed r1, show (3 : Nat) = 2 + 1 from rfl, errandRun_failed r2,
      errandRun_failed r3, errandRun_ends r4 (by simp)]
    rfl
  · exact absurd ho (h o rfl)

/-! ### Runs -/

/-- END is late; meanwhile the value is changed; the read, sent again, is told the old value, and so is every later
one the value before. -/
example :
    let r := errands smallBufs [(errandPut (ascii "a") (ascii "1") 0, errandNow 10),
      (.read .get (ascii "a"), { env := { now := 11 }, inTime := some 16 } ::
        [{ env := { now := 12 }, before := [({ now := 12 }, .set { key := ascii "a", data := ascii "2", size := 1 } {})] }]),
      (errandPut (ascii "a") (ascii "3") 0, errandNow 13),
      (.read .get (ascii "a"), errandNow 14)] { store := { cacheSize := 4 } }
    (errandShow r.2).take 2 = [(.wrote (.sent true .stored [] none), false, ascii "1", 1), (.got, true, ascii "1", 2)] ∧
    (step r.1.store { now := 15 } (.get { key := ascii "a" } {})).2.e.data = ascii "3" := by decide +kernel

/-- The value of `a` has been chosen by someone; the node that asks for `b` crashes. -/
example :
    let r := errands smallBufs [(errandPut (ascii "a") (ascii "VALUE b 0 2147483647\r\n") 0, errandNow 10),
      (.read .get (ascii "a"), errandLate 11 0), (.read .get (ascii "b"), errandAgain 12)] { store := { cacheSize := 4 } }
    (errandShow r.2).map (·.1) = [.wrote (.sent true .stored [] none), .failed, .ub] := by decide +kernel

/-- The value of `a` is late; `gat` of `b` is carried out four times. -/
example :
    let r := errands smallBufs [(errandPut (ascii "a") (ascii "x") 0, errandNow 10),
      (errandPut (ascii "b") (ascii "y") 0, errandNow 10), (.read .get (ascii "a"), errandLate 11 0),
      (.write { cmd := .gat, entry := { key := ascii "b", expire := 50000000 } }, errandAgain 12)]
      { store := { cacheSize := 4 } }
    (r.2.map fun x => x.did.length) = [1, 1, 1, 4] ∧
    r.1.wire = ascii "VALUE b 0 1\r\ny\r\nVALUE b 0 1\r\ny\r\nVALUE b 0 1\r\ny\r\n" := by decide +kernel

end Flare
