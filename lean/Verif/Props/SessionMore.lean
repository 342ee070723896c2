import Verif.Props.Session

namespace Flare

/-! More about the session of a client of the text protocol: lines that are refused, values that are cut off,
and what the requests leave behind. -/

/-- The line of a store: words that end at a blank, and no end of a line inside. -/
theorem storeLine_shape {r : WriteReq} (hk : PlainKey r.entry.key 8192) :
    ∃ t, storeLine r = proxyIdent r.path ++ r.cmd.ident ++ (chSpace :: t) ++ crlf ∧
      ∀ c ∈ chSpace :: t, c ≠ chNl := by
  refine ⟨cstr r.entry.key ++ chSpace :: decimal r.entry.flag.toNat ++ chSpace :: decimalInt r.entry.expire.toInt ++
    chSpace :: decimal r.entry.size.toNat ++ (if r.entry.version > 0 ∨ r.cmd = .cas
      then chSpace :: decimal r.entry.version.toNat else []) ++ optionWords r.entry.option, ?_, ?_⟩
  · simp only [storeLine, List.append_assoc, List.cons_append]
  · have hk : ∀ c ∈ cstr r.entry.key, c ≠ chNl := fun c h =>
      plainKey_nl hk c ((List.takeWhile_prefix _).subset h)
    have ho : ∀ c ∈ optionWords r.entry.option, c ≠ chNl := by
      intro c h
      simp only [optionWords, List.mem_append] at h
      rcases h with (h | h) | h
      all_goals
        split at h
        · revert c; decide
        · cases h
    have hd : ∀ n, ∀ c ∈ chSpace :: decimal n, c ≠ chNl := fun n => mem_space (decimal_ne_nl n)
    rw [show chSpace :: (cstr r.entry.key ++ chSpace :: decimal r.entry.flag.toNat ++
        chSpace :: decimalInt r.entry.expire.toInt ++ chSpace :: decimal r.entry.size.toNat ++
        (if r.entry.version > 0 ∨ r.cmd = .cas then chSpace :: decimal r.entry.version.toNat else []) ++
        optionWords r.entry.option) = (chSpace :: cstr r.entry.key) ++ chSpace :: decimal r.entry.flag.toNat ++
        chSpace :: decimalInt r.entry.expire.toInt ++ chSpace :: decimal r.entry.size.toNat ++
        (if r.entry.version > 0 ∨ r.cmd = .cas then chSpace :: decimal r.entry.version.toNat else []) ++
        optionWords r.entry.option from rfl]
    refine mem_app (mem_app (mem_app (mem_app (mem_app (mem_space hk) (hd _)) (mem_space (decimalInt_ne_nl _)))
      (hd _)) ?_) ho
    split
    · exact hd _
    · simp

/-- A value shorter than the line has said is the end: nothing of it is taken for requests. -/
theorem takeReq_cut (now : Int64) (first q : Bytes) (hf : first.length = 1024) (hq : q.length = 8192)
    (r : WriteReq) (hc : r.cmd.kind = .store) (hr : Sendable r 8192) (b : Bytes) (hb : encodeWrite r = some b)
    (part : Bytes) (hp : part.length < r.entry.size.toNat + 2) :
    takeReq now first q (storeLine r ++ part) = .cut := by
  have hbytes : b = storeLine r ++ r.entry.data.take r.entry.size.toNat ++ crlf := by
    simp only [encodeWrite, hc] at hb
    split at hb
    · exact (Option.some.inj hb).symm
    · cases hb
  have h0 := takeReq_encode (now := now) (first := first) (q := q) (more := []) (r := .write r) hf hq hr hb
  rw [hbytes, List.append_nil] at h0
  obtain ⟨tail, h1, h2⟩ := storeLine_shape hr.1
  have line := fun rest => takeReq_line (now := now) (first := first) (q := q) (path := r.path) (cmd := r.cmd)
    (more := rest) hr.2.1 (by omega) h2 (ends_space _)
  rw [h1] at h0 ⊢
  rw [List.append_assoc, line] at h0
  rw [line]
  simp only [takeWrite, parseParams, hc] at h0 ⊢
  cases he : entryParse now (if r.cmd = .cas then .cas else .set) (chSpace :: tail ++ [chNl]) q { key := [] } with
  | error f =>
    rw [he] at h0
    cases f with
    | ub => cases h0
    | err =>
      simp only [true_and] at h0
      rcases ite_eq_iff.1 h0 with ⟨_, h⟩ | ⟨_, h⟩ <;> cases h
  | ok e =>
    rw [he] at h0
    have hs : e.size = r.entry.size ∧ ¬ e.size.toNat + 2 > intMax := by
      simp only [readSize] at h0
      by_cases g1 : e.size.toNat + 2 > intMax
      · simp only [if_pos g1] at h0
        cases h0
      · rw [if_neg g1] at h0
        by_cases g2 : (r.entry.data.take r.entry.size.toNat ++ crlf).length < e.size.toNat + 2
        · simp only [if_pos g2, true_and] at h0
          cases h0
        · simp only [if_neg g2, Took.req.injEq, SReq.seen, SReq.write.injEq] at h0
          refine ⟨?_, g1⟩
          rw [show e.size = (arrives now r).entry.size from congrArg (fun x => x.entry.size) h0.1]
          revert hc
          cases hcmd : r.cmd <;> intro hc <;> first | (simp only [arrives, hcmd]; done) | cases hc
    obtain ⟨hs, g1⟩ := hs
    rw [hs] at g1
    simp only [readSize, hs, if_neg g1, if_pos hp, true_and]
    rfl

/-- A store whose value is cut off by the end of the connection is not carried out: the client is told ERROR,
nothing of the value is taken for requests, and the session is over. -/
theorem C71_cut_value {σ : Type} (B : Back σ) (now : Int64) (first q : Bytes) (hf : first.length = 1024)
    (hq : q.length = 8192) (st : σ) (r : WriteReq) (hc : r.cmd.kind = .store) (hr : Sendable r 8192) (b : Bytes)
    (hb : encodeWrite r = some b) (part : Bytes) (hp : part.length < r.entry.size.toNat + 2) :
    serveAll B now first q st (storeLine r ++ part) =
      { st := st, out := ascii "ERROR\r\n", stop := .closed } := by
  simp only [serveAll, session, takeReq_cut now first q hf hq r hc hr b hb part hp]
  rfl

/-- The value that does not come looks like a request. -/
example :
    let t := serveAll (ownNode 1000) 1000 (List.replicate 64 0) (List.replicate 64 0)
      (step { cacheSize := 0 } { now := 1000 } (.set { key := [120], size := 1, data := [121] } {})).1
      (ascii "set a 0 0 12\r\nflush_all\r\n")
    t.did = [] ∧ t.out = ascii "ERROR\r\n" ∧ t.stop = .closed ∧ t.st.db.length = 1 := by decide +kernel

/-- The words of a request that takes none: a further word. -/
theorem takeBare_bad {r : SReq} {q s w t : Bytes} (hw : ∀ x ∈ w, wordChar x = true) (hn : w ≠ []) (ht : Ends t)
    (hl : w.length < q.length) : takeBare r (chSpace :: w ++ t) q s = .bad s := by
  obtain ⟨q', a, b, -⟩ := scanWord_field hw hn ht hl
  simp only [takeBare, a, b, if_neg hn]

/-- A line that is refused: `ping`, `version` and `quit` with a word behind them, `get` and `gets` without a key,
`flush_all` with an option other than noreply, or with an expiry that is no number. -/
inductive RefusedLine : Bytes → Prop
  | bare (c a : Bytes) : c ∈ [ascii "ping", ascii "version", ascii "quit"] → PlainKey a 1024 →
      RefusedLine (c ++ chSpace :: a)
  | noKey (c : Bytes) : c ∈ [ascii "get", ascii "gets"] → RefusedLine c
  | sync : RefusedLine (ascii "flush_all sync")
  | expiry (a : Bytes) : (∀ x ∈ a, digitChar x = true) → a ≠ [] → a.length < 1024 → lexTime a = none →
      RefusedLine (ascii "flush_all" ++ chSpace :: a)

theorem takeReq_refused (now : Int64) (first q : Bytes) (hf : first.length = 1024) (hq : q.length = 8192)
    (l : Bytes) (hl : RefusedLine l) (more : Bytes) : takeReq now first q (l ++ crlf ++ more) = .bad more := by
  have nl : ∃ q', scanWord [chNl] q = .ok ([chNl], q') ∧ cstr q' = [] := by
    obtain ⟨q', a, b, -⟩ := scanWord_nl q (by omega)
    exact ⟨q', a, b⟩
  cases hl with
  | bare c a hc ha =>
    have hnl : ∀ x ∈ chSpace :: a, x ≠ chNl := mem_space (plainKey_nl ha)
    have hw : ∀ x ∈ a, wordChar x = true := ha.word
    have hlen := ha.2.2
    have h1 : ∀ c ∈ [ascii "ping", ascii "version", ascii "quit"], (∀ x ∈ c, wordChar x = true) ∧ c ≠ [] ∧
        c.head? ≠ some chLt ∧ c.head? ≠ some 0x80 ∧ c.length < 10 ∧ writeCmdOf c = none := by decide
    have h1 := h1 c hc
    rw [takeReq_word h1.1 h1.2.1 h1.2.2.1 h1.2.2.2.1 hnl (ends_space _) (by omega) h1.2.2.2.2.2]
    have bad := fun (r : SReq) (q : Bytes) (h : 1024 ≤ q.length) => takeBare_bad (r := r) (q := q) (s := more)
      hw ha.1 (ends_nl []) (by omega)
    simp only [List.mem_cons, List.not_mem_nil, or_false] at hc
    rcases hc with rfl | rfl | rfl
    · rw [if_neg (by decide), if_neg (by decide), if_pos rfl]
      exact bad _ _ (by omega)
    · rw [if_neg (by decide), if_neg (by decide), if_neg (by decide), if_pos rfl]
      exact bad _ _ (by omega)
    · rw [if_neg (by decide), if_neg (by decide), if_neg (by decide), if_neg (by decide), if_pos rfl]
      exact bad _ _ (by omega)
  | noKey c hc =>
    have h1 : ∀ c ∈ [ascii "get", ascii "gets"], (∀ x ∈ c, wordChar x = true) ∧ c ≠ [] ∧
        c.head? ≠ some chLt ∧ c.head? ≠ some 0x80 ∧ c.length < 10 ∧ writeCmdOf c = none := by decide
    have h1 := h1 l hc
    have := takeReq_word (now := now) (first := first) (q := q) (t := []) (more := more) h1.1 h1.2.1 h1.2.2.1
      h1.2.2.2.1 (by simp) (ends_nl []) (by omega) h1.2.2.2.2.2
    rw [List.append_nil] at this
    rw [this]
    obtain ⟨q', a, b⟩ := nl
    have g : ∀ t, takeGet t ([] ++ [chNl]) q more = .bad more := by
      intro t
      simp only [takeGet, getKeys, List.nil_append, List.length_cons, List.length_nil, getKeysLoop, a, b, if_true]
    simp only [List.mem_cons, List.not_mem_nil, or_false] at hc
    rcases hc with rfl | rfl
    · rw [if_pos rfl]; exact g _
    · rw [if_neg (by decide), if_pos rfl]; exact g _
  | sync =>
    have h1 := takeReq_word (now := now) (first := first) (q := q) (w := ascii "flush_all")
      (t := chSpace :: strSync) (more := more) (by decide) (by decide) (by decide) (by decide) (by decide)
      (ends_space _) (by rw [hf]; decide) (by decide)
    rw [show ascii "flush_all" ++ chSpace :: strSync = ascii "flush_all sync" from by decide] at h1
    rw [h1, if_neg (by decide), if_neg (by decide), if_neg (by decide), if_neg (by decide), if_neg (by decide),
      if_neg (by decide), if_pos rfl]
    obtain ⟨q', a, c, d⟩ := scanDigit_empty (t := chSpace :: strSync ++ [chNl]) (q := q) (c := 115)
      (r := [121, 110, 99, chNl]) 1 (by decide) (by decide) (by decide) (by omega)
    obtain ⟨q2, h2⟩ := parseOptions_words [strSync] (by simp) 7 (by decide) q' (by omega) { key := [] }
    simp only [optText, List.append_nil] at h2
    rw [show chSpace :: strSync ++ [chNl] = chSpace :: (115 :: [121, 110, 99, chNl]) from by decide,
      parseOptions_blank] at h2
    simp only [takeFlush, a, c, ne_eq, not_true, false_and, if_false, takeOptions]
    rw [show (115 :: [121, 110, 99, chNl]).length + 1 = 6 from rfl, parseOptions_fuel 6 7 _ q' _ (by omega) (by decide)
      (by decide), h2]
    rfl
  | expiry a ha hn hl ht =>
    have hnl : ∀ x ∈ chSpace :: a, x ≠ chNl := mem_space (fun x hx h => by
      have := ha x hx
      rw [h] at this
      cases this)
    rw [takeReq_word (by decide) (by decide) (by decide) (by decide) hnl (ends_space _) (by rw [hf]; decide) (by decide),
      if_neg (by decide), if_neg (by decide), if_neg (by decide), if_neg (by decide), if_neg (by decide),
      if_neg (by decide), if_pos rfl]
    obtain ⟨q', b, c, -⟩ := scanDigit_field (q := q) ha hn (ends_nl []) (by omega)
    simp only [takeFlush, b, c, ht, ne_eq, hn, not_false_eq_true, and_self, if_true]

/-- A refused line is answered with ERROR, nothing is done for it, and what follows is served as if the line had
not been there. -/
theorem C71_refused_line {σ : Type} (B : Back σ) (now : Int64) (first q : Bytes) (hf : first.length = 1024)
    (hq : q.length = 8192) (st : σ) (l : Bytes) (hl : RefusedLine l) (n : Nat) (more : Bytes) :
    session B now first q (n + 1) st (l ++ crlf ++ more) =
      (session B now first q n st more).after [] (ascii "ERROR\r\n") := by
  simp only [session, takeReq_refused now first q hf hq l hl more]
  rfl

example :
    let t := serveAll (ownNode 1000) 1000 (List.replicate 64 0) (List.replicate 64 0) { cacheSize := 0 }
      (ascii "ping a\r\nget\r\nquit now\r\nflush_all sync\r\nflush_all -\r\nping\r\n")
    t.out = ascii "ERROR\r\nERROR\r\nERROR\r\nERROR\r\nERROR\r\nOK\r\n" ∧ t.stop = .closed ∧
      t.did = [(.ping, .status none)] := by decide +kernel

theorem readKeys_keep {σ : Type} {B : Back σ} {P : σ → Prop} (hr : ∀ st k, P st → P (B.read st k).1) (ks : List Bytes)
    (st : σ) (h : P st) : P (readKeys B st ks).1 := by
  induction ks generalizing st with
  | nil => exact h
  | cons k ks ih => exact ih _ (hr _ _ h)

theorem performAll_keep {σ : Type} {B : Back σ} {P : σ → Prop} (hr : ∀ st k, P st → P (B.read st k).1)
    (hs : ∀ st, P st → P (B.status st).1) (rs : List SReq) (hw : ∀ r ∈ rs, ∀ w, r ≠ .write w)
    (hf : ∀ b, SReq.flush b ∈ rs → ∀ st, P (B.flush st).1) (st : σ)
    (h : P st ∨ ∃ b, SReq.flush b ∈ rs) : P (performAll B st rs).1 := by
  induction rs generalizing st with
  | nil =>
    rcases h with h | ⟨b, h⟩
    · exact h
    · cases h
  | cons r rs ih =>
    have ih := ih (fun x hx => hw x (List.mem_cons_of_mem _ hx)) (fun b hb => hf b (List.mem_cons_of_mem _ hb))
    show P (performAll B (perform B st r).1 rs).1
    by_cases g : ∃ b, SReq.flush b ∈ rs
    · exact ih _ (.inr g)
    · refine ih _ (.inl ?_)
      have h' : P st ∨ ∃ b, r = .flush b := by
        rcases h with h | ⟨b, hb⟩
        · exact .inl h
        · rcases List.mem_cons.1 hb with hb | hb
          · exact .inr ⟨b, hb.symm⟩
          · exact absurd ⟨b, hb⟩ g
      cases r with
      | write w => exact absurd rfl (hw _ List.mem_cons_self w)
      | flush b => exact hf b List.mem_cons_self st
      | get t ks =>
        rcases h' with h' | ⟨b, h'⟩
        · exact readKeys_keep hr ks st h'
        · cases h'
      | ping =>
        rcases h' with h' | ⟨b, h'⟩
        · exact hs st h'
        · cases h'
      | _ =>
        rcases h' with h' | ⟨b, h'⟩
        · exact h'
        · cases h'

/-- What a session without writes leaves behind.  Whatever reads and the look at the status keep is as it was
before; after a `flush_all`, with or without `noreply`, it is as a flush makes it. -/
theorem C71_effects {σ : Type} (B : Back σ) (now : Int64) (first q w v : Bytes)
    (hf : first.length = 1024) (hq : q.length = 8192) (hw : w.length = 8192) (hv : v.length = 8192)
    (rs : List SReq) (bs : List Bytes) (hp : ∀ r ∈ rs, r.Proper) (hx : ∀ r ∈ rs, r ≠ .quit)
    (hb : rs.map encodeReq = bs.map some) (st : σ)
    (hd : ∀ x ∈ (performAll B st (rs.map (SReq.seen now))).2, Did.Sound x.1 x.2)
    (hl : ∀ x ∈ (performAll B st (rs.map (SReq.seen now))).2, Did.loud x.1 x.2 = false)
    (hnw : ∀ r ∈ rs, ∀ w, r ≠ .write w) (P : σ → Prop)
    (hr : ∀ st k, P st → P (B.read st k).1) (hs : ∀ st, P st → P (B.status st).1) :
    let t := serveAll B now first q st bs.flatten
    ((∀ b, SReq.flush b ∉ rs) → P st → P t.st) ∧
      ((∃ b, SReq.flush b ∈ rs) → (∀ st, P (B.flush st).1) → P t.st) := by
  have h := (C71_in_step_partial B now first q w v hf hq hw hv rs bs hp hx hb st hd hl).2.1
  have e : rs.map (SReq.seen now) = rs := by
    have : ∀ r ∈ rs, SReq.seen now r = id r := by
      intro r hr
      cases r with
      | write w => exact absurd rfl (hnw _ hr w)
      | _ => rfl
    rw [List.map_congr_left this, List.map_id]
  rw [e] at h
  have h : (serveAll B now first q st bs.flatten).st = (performAll B st rs).1 := congrArg Prod.fst h
  refine ⟨fun h1 h2 => ?_, fun h1 h2 => ?_⟩
  · rw [h]
    exact performAll_keep hr hs rs hnw (fun b hb => absurd hb (h1 b)) st (.inl h2)
  · rw [h]
    exact performAll_keep hr hs rs hnw (fun _ _ => h2) st (.inr h1)

/-- `flush_all noreply` empties the storage without a word; `ping` does not. -/
example :
    let st := (step { cacheSize := 0 } { now := 1000 } (.set { key := [120], size := 1, data := [121] } {})).1
    let f := fun s => serveAll (ownNode 1000) 1000 (List.replicate 64 0) (List.replicate 64 0) st (ascii s)
    (f "flush_all noreply\r\n").st.db = [] ∧ (f "flush_all noreply\r\n").out = [] ∧
      (f "flush_all\r\n").st.db = [] ∧ (f "ping\r\nversion\r\nverbosity 1\r\n").st = st := by decide +kernel

/-- The words of the protocol. -/
def Result.told : Result → Bytes
  | .none_ => ascii "\r\n" | .stored => ascii "STORED\r\n" | .notStored => ascii "NOT_STORED\r\n"
  | .exists_ => ascii "EXISTS\r\n" | .notFound => ascii "NOT_FOUND\r\n" | .deleted => ascii "DELETED\r\n"
  | .found => ascii "FOUND\r\n" | .touched => ascii "TOUCHED\r\n"

/-- The line for each result of the own storage, for every write that does not send a value: the word of the
protocol for that result. -/
theorem C71_own_told (r : WriteReq) (o : Out) (res : Result) (hok : o.rc = .ok) (hr : o.r = some res)
    (hn : r.entry.option &&& optNoreply = 0) (hc : r.cmd.kind = .count → res ≠ .stored)
    (hg : r.cmd = .gat → res ≠ .touched) :
    writeAnswer r (.own o) = some res.told := by
  simp only [writeAnswer, hok, hr, hn, ne_eq, not_true, if_false]
  cases hcmd : r.cmd <;> cases res <;>
    first
    | exact absurd rfl (hc (by rw [hcmd]; rfl))
    | exact absurd rfl (hg hcmd)
    | rfl

example :
    let t := serveAll (ownNode 1000) 1000 (List.replicate 64 0) (List.replicate 64 0) { cacheSize := 0 }
      (ascii "add a 0 0 1\r\nx\r\nadd a 0 0 1\r\ny\r\ncas a 0 0 1 77\r\nz\r\ntouch a 5\r\ndelete b\r\ndelete a\r\n")
    t.out = ascii "STORED\r\nNOT_STORED\r\nEXISTS\r\nTOUCHED\r\nNOT_FOUND\r\nDELETED\r\n" := by decide +kernel

end Flare
