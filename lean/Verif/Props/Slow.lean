import Verif.Spec.Slow
import Verif.Props.SessionMore
import Verif.Props.BinSession

/-! C77: breaks in what a client sends. -/
namespace Flare

variable {σ : Type}

/-! ### Every turn takes a byte -/

theorem parseParams_rest {now : Int64} {cmd : WriteCmd} {path : List Bytes} {line q s rest : Bytes} {r : WriteReq}
    (h : parseParams now cmd path line q s = .ok (r, rest)) : rest.length ≤ s.length := by
  simp only [parseParams] at h
  split at h
  · split at h
    · exact nomatch h
    · rename_i e _
      simp only [readSize] at h
      by_cases h1 : e.size.toNat + 2 > intMax
      · simp only [if_pos h1] at h; exact nomatch h
      · by_cases h2 : s.length < e.size.toNat + 2
        · simp only [if_neg h1, if_pos h2] at h; exact nomatch h
        · simp only [if_neg h1, if_neg h2, Except.ok.injEq, Prod.mk.injEq] at h
          rw [← h.2, List.length_drop]; omega
  all_goals grind

/-- What a turn leaves on the connection. -/
def Took.left : Took → Nat → Prop
  | .bad rest, n => rest.length ≤ n
  | .req _ rest, n => rest.length ≤ n
  | _, _ => True

theorem takeBare_left (r : SReq) (line q s : Bytes) : (takeBare r line q s).left s.length := by
  simp only [takeBare]; grind [Took.left]

theorem takeOptions_left (r : Bool → SReq) (line q s : Bytes) : (takeOptions r line q s).left s.length := by
  simp only [takeOptions]; grind [Took.left]

theorem takeVerbosity_left (line q s : Bytes) : (takeVerbosity line q s).left s.length := by
  have := fun f p q => takeOptions_left f p q s
  simp only [takeVerbosity]; grind [Took.left]

theorem takeFlush_left (line q s : Bytes) : (takeFlush line q s).left s.length := by
  have := fun f p q => takeOptions_left f p q s
  simp only [takeFlush]; grind [Took.left]

theorem takeGet_left (t : ResponseType) (line q s : Bytes) : (takeGet t line q s).left s.length := by
  simp only [takeGet]; grind [Took.left]

theorem takeWrite_left (now : Int64) (cmd : WriteCmd) (path : List Bytes) (line q s : Bytes) :
    (takeWrite now cmd path line q s).left s.length := by
  simp only [takeWrite]
  cases h : parseParams now cmd path line q s with
  | ok x => obtain ⟨r, rest⟩ := x; exact parseParams_rest h
  | error f => cases f <;> grind [Took.left]

theorem takeReq_left (now : Int64) (first q s : Bytes) : (takeReq now first q s).left (s.length - 1) := by
  simp only [takeReq]
  split
  · trivial
  · cases hl : readLine s with
    | none => trivial
    | some x =>
      obtain ⟨line, rest⟩ := x
      obtain ⟨y, hs, -⟩ := readLine_rest hl
      have hlen : rest.length ≤ s.length - 1 := by rw [hs]; simp
      have mono : ∀ t : Took, t.left rest.length → t.left (s.length - 1) := by
        intro t ht; cases t <;> simp only [Took.left] at ht ⊢ <;> omega
      simp only
      split
      · trivial
      · split
        · exact mono _ (takeWrite_left ..)
        · repeat' split
          all_goals first
            | exact mono _ (takeGet_left ..) | exact mono _ (takeBare_left ..)
            | exact mono _ (takeVerbosity_left ..) | exact mono _ (takeFlush_left ..)
            | trivial | exact hlen

theorem takeReq_some {now : Int64} {first q s : Bytes} (h : s = []) : takeReq now first q s = .over := by
  subst h; rfl

theorem takeReq_shorter {now : Int64} {first q s rest : Bytes} {r : SReq}
    (h : takeReq now first q s = .req r rest ∨ takeReq now first q s = .bad rest) : rest.length < s.length := by
  have hl := takeReq_left now first q s
  have hs : s ≠ [] := by
    intro hs
    rw [takeReq_some hs] at h
    rcases h with h | h <;> exact nomatch h
  have := List.length_pos_iff.2 hs
  rcases h with h | h <;> rw [h] at hl <;> simp only [Took.left] at hl <;> omega

/-! ### The bound on the turns does not matter -/

theorem slowSize_pos (s : Bytes) (more : List Bytes) : s.length ≤ slowSize s more := by
  cases more <;> simp only [slowSize] <;> omega

theorem slowSize_less {s rest : Bytes} (more : List Bytes) (h : rest.length < s.length) :
    slowSize rest more < slowSize s more := by
  cases more <;> simp only [slowSize] <;> omega

theorem slowSize_flatten (s : Bytes) (more : List Bytes) :
    slowSize s more = s.length + more.flatten.length + more.length := by
  induction more generalizing s with
  | nil => simp [slowSize]
  | cons t more ih => simp only [slowSize, ih, List.flatten_cons, List.length_append, List.length_cons]; omega

theorem slow_fuel (B : Back σ) (now : Int64) (first q : Bytes) (n m : Nat) (st : σ) (s : Bytes) (more : List Bytes)
    (hn : slowSize s more < n) (hm : slowSize s more < m) :
    slowSession B now first q n st s more = slowSession B now first q m st s more := by
  induction n generalizing m st s more with
  | zero => omega
  | succ n ih =>
    cases m with
    | zero => omega
    | succ m =>
      simp only [slowSession]
      cases ht : takeReq now first q s with
      | over => rfl
      | other => rfl
      | ub => rfl
      | cut =>
        cases more with
        | nil => rfl
        | cons t more =>
          simp only [slowSize] at hn hm
          simp only [ih m st t more (by omega) (by omega)]
      | bad rest =>
        have := slowSize_less more (takeReq_shorter (r := .ping) (.inr ht))
        simp only [ih m st rest more (by omega) (by omega)]
      | req r rest =>
        have := slowSize_less more (takeReq_shorter (.inl ht))
        simp only [ih m (perform B st r).1 rest more (by omega) (by omega)]

/-- A client that is not slow is served as before. -/
theorem slow_session (B : Back σ) (now : Int64) (first q : Bytes) (n : Nat) (st : σ) (s : Bytes) :
    slowSession B now first q n st s [] = session B now first q n st s := by
  induction n generalizing st s with
  | zero => rfl
  | succ n ih =>
    simp only [slowSession, session]
    cases takeReq now first q s <;> simp only [ih] <;> rfl

/-! ### C77 -/

theorem slow_break (B : Back σ) (now : Int64) (first q : Bytes) (n m : Nat) (st : σ) (s : Bytes) (t : Bytes)
    (more : List Bytes) (hn : slowSize s (t :: more) < n) (hm : s.length < m) :
    slowSession B now first q n st s (t :: more) =
      if endsInValue B now first q m st s then
        (slowSession B now first q n (session B now first q m st s).st t more).after
          (session B now first q m st s).did (session B now first q m st s).out
      else session B now first q m st s := by
  induction m generalizing n st s with
  | zero => omega
  | succ m ih =>
    cases n with
    | zero => omega
    | succ n =>
      cases ht : takeReq now first q s with
      | over => simp only [slowSession, session, endsInValue, ht]; rfl
      | other => simp only [slowSession, session, endsInValue, ht]; rfl
      | ub => simp only [slowSession, session, endsInValue, ht]; rfl
      | cut =>
        simp only [slowSession, session, endsInValue, ht, if_true]
        rw [slow_fuel B now first q n (n + 1) st t more (by simp only [slowSize] at hn; omega)
          (by simp only [slowSize] at hn; omega)]
        rfl
      | bad rest =>
        have hr := takeReq_shorter (r := .ping) (.inr ht)
        have hl := slowSize_less (t :: more) hr
        have hft : ∀ x, slowSession B now first q n x t more = slowSession B now first q (n + 1) x t more :=
          fun x => slow_fuel B now first q n (n + 1) x t more (by simp only [slowSize] at hn; omega)
            (by simp only [slowSize] at hn; omega)
        simp only [slowSession, session, endsInValue, ht, ih n st rest (by omega) (by omega), hft]
        split
        · simp only [Talk.after_after]; rfl
        · rfl
      | req r rest =>
        have hr := takeReq_shorter (.inl ht)
        have hl := slowSize_less (t :: more) hr
        have hft : ∀ x, slowSession B now first q n x t more = slowSession B now first q (n + 1) x t more :=
          fun x => slow_fuel B now first q n (n + 1) x t more (by simp only [slowSize] at hn; omega)
            (by simp only [slowSize] at hn; omega)
        cases ha : answer r (perform B st r).2 with
        | none => simp only [slowSession, session, endsInValue, ht, ha]; rfl
        | some b =>
          simp only [slowSession, session, endsInValue, ht, ha]
          by_cases hq : r = .quit
          · simp only [if_pos hq]; rfl
          · simp only [if_neg hq, ih n _ rest (by omega) (by omega), hft]
            split
            · simp only [Talk.after_after]; rfl
            · rfl

/-- C77.  A session with a break is the session over what came before the break; only if the break falls
within the value of a request, it goes on, with what comes after the break as if it were the beginning of a
session. -/
theorem C77_break (B : Back σ) (now : Int64) (first q : Bytes) (st : σ) (s t : Bytes) (more : List Bytes) :
    serveSlow B now first q st s (t :: more) =
      if endsInValue B now first q (s.length + 1) st s then
        (serveSlow B now first q (serveAll B now first q st s).st t more).after
          (serveAll B now first q st s).did (serveAll B now first q st s).out
      else serveAll B now first q st s := by
  have h1 := slowSize_flatten s (t :: more)
  have h2 := slowSize_flatten t more
  simp only [serveSlow, serveAll]
  rw [slow_break B now first q _ (s.length + 1) st s t more (by omega) (by omega)]
  have : ∀ x, slowSession B now first q (s.length + (t :: more).flatten.length + (t :: more).length + 1) x t more =
      slowSession B now first q (t.length + more.flatten.length + more.length + 1) x t more :=
    fun x => slow_fuel B now first q _ _ x t more (by simp only [slowSize] at h1; omega) (by omega)
  simp only [this]

theorem endsInValue_proper (B : Back σ) {now : Int64} {first q w v : Bytes} (hf : first.length = 1024)
    (hq : q.length = 8192) (hw : w.length = 8192) (hv : v.length = 8192) (rs : List SReq) (bs : List Bytes)
    (hp : ∀ r ∈ rs, r.Proper) (hx : ∀ r ∈ rs, r ≠ .quit) (hb : rs.map encodeReq = bs.map some) (st : σ)
    (hd : ∀ x ∈ (performAll B st (rs.map (SReq.seen now))).2, Did.Sound x.1 x.2 ∧ Did.loud x.1 x.2 = false)
    (more : Bytes) (n : Nat) :
    endsInValue B now first q (rs.length + n) st (bs.flatten ++ more) =
      endsInValue B now first q n (performAll B st (rs.map (SReq.seen now))).1 more := by
  induction rs generalizing bs st with
  | nil =>
    cases bs with
    | cons b bs => simp at hb
    | nil => simp [performAll]
  | cons r rs ih =>
    cases bs with
    | nil => simp at hb
    | cons b bs =>
      simp only [List.map_cons, List.cons.injEq] at hb
      simp only [List.map_cons, performAll] at hd ⊢
      obtain ⟨st1, e1⟩ : ∃ x, x = perform B st (r.seen now) := ⟨_, rfl⟩
      have hd1 := hd (r.seen now, st1.2) (by rw [e1]; exact List.mem_cons_self)
      have h1 := ih bs (fun x h => hp x (List.mem_cons_of_mem _ h))
        (fun x h => hx x (List.mem_cons_of_mem _ h)) hb.2 st1.1
        (fun x h => hd x (by rw [← e1]; exact List.mem_cons_of_mem _ h))
      obtain ⟨a, h3, -⟩ := answer_reads B (now := now) (w := w) (q := v) (more := []) (r := r) (st := st) hw hv
        (hp r List.mem_cons_self) (by rw [← e1]; exact hd1.1) (by rw [← e1]; exact hd1.2)
      have ht := takeReq_encode (now := now) (more := bs.flatten ++ more) hf hq (hp r List.mem_cons_self) hb.1
      rw [List.length_cons, show rs.length + 1 + n = (rs.length + n) + 1 by omega, List.flatten_cons,
        List.append_assoc]
      have hnq : ¬ r.seen now = .quit := fun h => hx r List.mem_cons_self (seen_quit.1 h)
      rw [← e1] at h3
      simp only [endsInValue, ht, ← e1, h3, if_neg hnq, h1]

theorem encodings_length {rs : List SReq} {bs : List Bytes} (hp : ∀ r ∈ rs, r.Proper)
    (hb : rs.map encodeReq = bs.map some) : rs.length ≤ bs.flatten.length := by
  induction rs generalizing bs with
  | nil => simp
  | cons r rs ih =>
    cases bs with
    | nil => simp at hb
    | cons b bs =>
      simp only [List.map_cons, List.cons.injEq] at hb
      have h1 := ih (bs := bs) (fun x h => hp x (List.mem_cons_of_mem _ h)) hb.2
      have h2 : b ≠ [] := fun h => encodeReq_ne_nil (hp r List.mem_cons_self) (by rw [hb.1, h])
      have h3 := List.length_pos_iff.2 h2
      simp only [List.length_cons, List.flatten_cons, List.length_append]
      omega

theorem takeReq_begun {now : Int64} {first q begun : Bytes} (hg : ∀ c ∈ begun, c ≠ chNl)
    (hm : begun.head? ≠ some 0x80) : takeReq now first q begun = .over := by
  simp only [takeReq, if_neg hm, readLine_noNl hg]

/-- C77.  Requests that came whole before the first break are carried out and answered, and the session is
over: of what comes after the break, and of a line that has been begun, nothing is carried out.  Missing: a
break within a value (`C77_late_value`). -/
theorem C77_between_requests_partial (B : Back σ) (now : Int64) (first q w v : Bytes)
    (hf : first.length = 1024) (hq : q.length = 8192) (hw : w.length = 8192) (hv : v.length = 8192)
    (rs : List SReq) (bs : List Bytes) (hp : ∀ r ∈ rs, r.Proper) (hx : ∀ r ∈ rs, r ≠ .quit)
    (hb : rs.map encodeReq = bs.map some) (st : σ)
    (hd : ∀ x ∈ (performAll B st (rs.map (SReq.seen now))).2, Did.Sound x.1 x.2)
    (hl : ∀ x ∈ (performAll B st (rs.map (SReq.seen now))).2, Did.loud x.1 x.2 = false)
    (begun : Bytes) (hg : ∀ c ∈ begun, c ≠ chNl) (hm : begun.head? ≠ some 0x80) (more : List Bytes) :
    let t := serveSlow B now first q st (bs.flatten ++ begun) more
    t.stop = .closed ∧ (t.st, t.did) = performAll B st (rs.map (SReq.seen now)) ∧
      readReplies now w v rs t.out = .ok (List.zipWith (fun r d => r.reply now d.2) rs t.did, []) := by
  have hlen := encodings_length hp hb
  have hl2 : (bs.flatten ++ begun).length + 1 = rs.length + ((bs.flatten ++ begun).length - rs.length + 1) := by
    rw [List.length_append]; omega
  obtain ⟨k, hk⟩ : ∃ k, k = (bs.flatten ++ begun).length - rs.length := ⟨_, rfl⟩
  rw [← hk] at hl2
  have hover := takeReq_begun (now := now) (first := first) (q := q) hg hm
  have hsame : serveSlow B now first q st (bs.flatten ++ begun) more =
      serveAll B now first q st (bs.flatten ++ begun) := by
    cases more with
    | nil => simp only [serveSlow, serveAll, slow_session]; rfl
    | cons t more =>
      rw [C77_break, if_neg]
      rw [hl2, endsInValue_proper B hf hq hw hv rs bs hp hx hb st (fun x h => ⟨hd x h, hl x h⟩)]
      simp only [endsInValue, hover]
      decide
  obtain ⟨out, h1, h2⟩ := session_proper B (now := now) hf hq hw hv rs bs hp hx hb st
    (fun x h => ⟨hd x h, hl x h⟩) begun (k + 1)
  rw [← hl2] at h1
  have h3 : session B now first q (k + 1) (performAll B st (rs.map (SReq.seen now))).1 begun =
      { st := (performAll B st (rs.map (SReq.seen now))).1, stop := .closed } := by
    simp only [session, hover]
  rw [h3] at h1
  have h4 := h2 []
  simp only [List.append_nil] at h4
  simp only [hsame, serveAll, h1, Talk.after, List.append_nil]
  exact ⟨trivial, trivial, h4⟩

example :
    let t := serveSlow (ownNode 1000) 1000 (List.replicate 64 0) (List.replicate 64 0)
      (step { cacheSize := 0 } { now := 1000 } (.set { key := [120], size := 1, data := [121] } {})).1
      (ascii "get x\r\nflush") [ascii "_all\r\n", ascii "flush_all\r\n"]
    t.out = ascii "VALUE x 0 1\r\ny\r\nEND\r\n" ∧ t.stop = .closed ∧ t.st.db.length = 1 := by decide +kernel

/-- C77, negation.  A client sends a store request and is slow within the value: it is told ERROR, what it
has sent of the value is dropped, and the rest of the value is taken for a session of its own. -/
theorem C77_late_value (B : Back σ) (now : Int64) (first q : Bytes) (hf : first.length = 1024)
    (hq : q.length = 8192) (st : σ) (r : WriteReq) (hc : r.cmd.kind = .store) (hr : Sendable r 8192) (b : Bytes)
    (hb : encodeWrite r = some b) (part : Bytes) (hp : part.length < r.entry.size.toNat + 2) (rest : Bytes)
    (more : List Bytes) :
    serveSlow B now first q st (storeLine r ++ part) (rest :: more) =
      (serveSlow B now first q st rest more).after [] (ascii "ERROR\r\n") := by
  rw [C77_break, if_pos, C71_cut_value B now first q hf hq st r hc hr b hb part hp]
  simp only [endsInValue, takeReq_cut now first q hf hq r hc hr b hb part hp]

/-- C77, negation.  A value that, with the delimiter behind it, consists of requests: if the client is slow
just before the value, all of them are carried out in its name. -/
theorem C77_value_carried_out (B : Back σ) (now : Int64) (first q w v : Bytes)
    (hf : first.length = 1024) (hq : q.length = 8192) (hw : w.length = 8192) (hv : v.length = 8192)
    (r : WriteReq) (hc : r.cmd.kind = .store) (hr : Sendable r 8192) (b : Bytes) (hb : encodeWrite r = some b)
    (rs : List SReq) (bs : List Bytes) (hp : ∀ r ∈ rs, r.Proper) (hx : ∀ r ∈ rs, r ≠ .quit)
    (hbs : rs.map encodeReq = bs.map some) (st : σ)
    (hd : ∀ x ∈ (performAll B st (rs.map (SReq.seen now))).2, Did.Sound x.1 x.2)
    (hl : ∀ x ∈ (performAll B st (rs.map (SReq.seen now))).2, Did.loud x.1 x.2 = false)
    (hval : r.entry.data.take r.entry.size.toNat ++ crlf = bs.flatten) :
    let t := serveSlow B now first q st (storeLine r) [r.entry.data.take r.entry.size.toNat ++ crlf]
    (t.st, t.did) = performAll B st (rs.map (SReq.seen now)) := by
  have h0 := C77_late_value B now first q hf hq st r hc hr b hb [] (by simp)
    (r.entry.data.take r.entry.size.toNat ++ crlf) []
  rw [List.append_nil] at h0
  have h1 := C77_between_requests_partial B now first q w v hf hq hw hv rs bs hp hx hbs st hd hl [] (by simp)
    (by simp) []
  rw [List.append_nil] at h1
  simp only
  rw [h0, hval]
  exact h1.2.1

example :
    let t := serveSlow (ownNode 1000) 1000 (List.replicate 64 0) (List.replicate 64 0)
      (step { cacheSize := 0 } { now := 1000 } (.set { key := [120], size := 1, data := [121] } {})).1
      (ascii "set a 0 0 9\r\n") [ascii "flush_all\r\n"]
    t.out = ascii "ERROR\r\nOK\r\n" ∧ t.did.map (·.1) = [.flush false] ∧ t.stop = .closed ∧ t.st.db = [] := by
  decide +kernel

/-! ### The binary protocol -/

theorem slowBin_session (B : BBack σ) (now : Int64) (n : Nat) (st : σ) (s : Bytes) :
    slowBinSession B now n st s [] = binSession B now n st s := by
  induction n generalizing st s with
  | zero => rfl
  | succ n ih =>
    simp only [slowBinSession, binSession]
    cases takeBin now s <;> simp only [ih] <;> rfl

theorem takeBin_part (now : Int64) (q : BinMsg) (hq : q.Fits) (ho : q.opcode ≠ 0x10) (n : Nat) (hn : 24 ≤ n)
    (hl : n < q.encode.length) : takeBin now (q.encode.take n) = .cut q.opcode.toNat := by
  obtain ⟨g1, -, -, g4, -, -⟩ := q.header_get 0x80 hq
  have hh := q.header_length 0x80
  have hm : intMax = 2147483647 := rfl
  have h3 := hq.2.2
  have hel : q.encode.length = 24 + (q.extras.length + q.key.length + q.value.length) := by
    rw [BinMsg.encode, BinMsg.bytes_eq]; simp only [List.length_append, hh]
  have htl : (q.encode.take n).length = n := by rw [List.length_take]; omega
  obtain ⟨k, rfl⟩ : ∃ k, n = k + 1 := ⟨n - 1, by omega⟩
  have hd : (q.encode.take (k + 1)).head? = some 0x80 := rfl
  have ht : (q.encode.take (k + 1)).take 24 = q.header 0x80 := by
    rw [List.take_take, Nat.min_eq_left (by omega), BinMsg.encode, BinMsg.bytes_eq, List.take_left' hh]
  have hop : q.opcode.toNat ≠ 0x10 := fun h => ho (UInt8.toNat_inj.1 h)
  have hb : bodySize (q.extras.length + q.key.length + q.value.length) =
      q.extras.length + q.key.length + q.value.length := by rw [bodySize, if_pos (by omega)]
  simp only [takeBin, hd, hSize, ht, g4, g1, hb]
  rw [if_neg (by decide), if_neg (by omega), if_neg hop, if_pos (by omega)]

/-- C77, negation.  A binary request whose body is late is answered with an error, what has been sent of the
body is dropped, and the rest of the body is taken for requests: those that it holds are carried out. -/
theorem C77_late_body (B : BBack σ) (now : Int64) (q : BinMsg) (hq : q.Fits) (ho : q.opcode ≠ 0x10) (st : σ)
    (n : Nat) (hn : 24 ≤ n) (hl : n < q.encode.length) (ms : List BinMsg) (hu : ∀ m ∈ ms, m.Usual)
    (hs : ∀ r d, some (r, d) ∈ (bPerformAll B st (ms.map (·.taken now))).2 → Did.BSound r d) :
    let t := binServeSlow B now st (q.encode.take n) [ms.flatMap BinMsg.encode]
    let p := bPerformAll B st (ms.map (·.taken now))
    t.stop = .closed ∧ t.st = p.1 ∧ t.did = p.2.filterMap id := by
  have hlen := encode_length ms
  have htl : (q.encode.take n).length = n := by rw [List.length_take]; omega
  obtain ⟨k, hk⟩ : ∃ k, (q.encode.take n).length + [ms.flatMap BinMsg.encode].flatten.length +
      [ms.flatMap BinMsg.encode].length + 1 = (ms.length + (k + 1)) + 1 :=
    ⟨n + (ms.flatMap BinMsg.encode).length - ms.length, by
      simp only [htl, List.flatten_singleton, List.length_singleton]; omega⟩
  obtain ⟨c, hc⟩ : ∃ c : UInt8, answerCode q.opcode.toNat = c.toNat := by
    have : answerCode q.opcode.toNat = 0x0a ∨ answerCode q.opcode.toNat = q.opcode.toNat := by
      unfold answerCode
      split
      · exact .inl rfl
      · exact .inr rfl
    rcases this with h | h
    · exact ⟨0x0a, h⟩
    · exact ⟨q.opcode, h⟩
  have hb := binResult_eq c .error [] (text_ascii (by decide))
  obtain ⟨h1, -⟩ := binSession_msgs B now ms hu st hs (k + 1) []
  have h2 : binSession B now (k + 1) (bPerformAll B st (ms.map (·.taken now))).1 [] =
      { st := (bPerformAll B st (ms.map (·.taken now))).1, stop := .closed } := rfl
  rw [List.append_nil, h2] at h1
  have main : binServeSlow B now st (q.encode.take n) [ms.flatMap BinMsg.encode] =
      (binSession B now (ms.length + (k + 1)) st (ms.flatMap BinMsg.encode)).after []
        ((OpResult.bin c [] .error).bytes 0x81) := by
    simp only [binServeSlow, hk]
    rw [slowBinSession]
    simp only [takeBin_part now q hq ho n hn hl, hc, hb.1, slowBin_session]
  simp only [main, h1]
  simp [BTalk.after]

/-- The value of a `set` is a `flush`. -/
example :
    let flush : BinMsg := { opcode := 8, extras := [], key := [], value := [] }
    let set : BinMsg := { opcode := 1, extras := List.replicate 8 0, key := [97], value := flush.encode }
    let t := binServeSlow (binNode 1000) 1000
      (step { cacheSize := 0 } { now := 1000 } (.set { key := [120], size := 1, data := [121] } {})).1
      (set.encode.take 33) [set.encode.drop 33]
    t.st.db = [] ∧ t.did.length = 1 := by decide +kernel

end Flare
