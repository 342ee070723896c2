import Verif.Lemmas.Connection
import Verif.Props.Text

/-! A request on a connection is the request on the flat stream. -/
set_option linter.unusedSimpArgs false
set_option linter.unusedVariables false
namespace Flare

/-! ### A blank in front of a line does not matter -/

theorem scanWord_len {p q p' q' : Bytes} (hq : 0 < q.length) (h : scanWord p q = .ok (p', q')) :
    p'.length ≤ p.length ∧ q'.length = q.length ∧ (cstr q' ≠ [] → p'.length < p.length) := by
  simp only [scanWord, nextWord_eq p q hq, Except.ok.injEq, Prod.mk.injEq] at h
  obtain ⟨rfl, rfl⟩ := h
  have hl := wordTok_length (src := p) hq
  have hc : cstr (wordTok p q.length ++ 0 :: q.drop ((wordTok p q.length).length + 1)) =
      wordTok p q.length := cstr_append (fun c hc => by
    have := wordTok_mem c hc
    simp only [wordChar, decide_eq_true_eq] at this
    exact this.1)
  refine ⟨by simp, by simp; omega, fun h => ?_⟩
  rw [hc] at h
  have hpos := List.length_pos_iff.2 h
  have hle : (wordTok p q.length).length ≤ p.length - blanks p := by
    have : wordTok p q.length <+: p.drop (blanks p) :=
      (List.take_prefix _ _).trans (List.takeWhile_prefix _)
    have := this.length_le
    simpa using this
  rw [List.length_drop]
  omega

theorem scanDigit_len {p q p' q' : Bytes} (h : scanDigit p q = .ok (p', q')) :
    p'.length ≤ p.length ∧ q'.length = q.length := by
  simp only [scanDigit, nextDigit_eq] at h
  split at h
  · simp at h
  · rename_i n q1 heq
    split at heq
    · simp only [Option.some.injEq, Prod.mk.injEq] at heq
      simp only [Except.ok.injEq, Prod.mk.injEq] at h
      obtain ⟨rfl, rfl⟩ := h
      obtain ⟨rfl, rfl⟩ := heq
      refine ⟨by simp, by simp; omega⟩
    · simp at heq

theorem parseOptions_fuel (n m : Nat) (p q : Bytes) (e : Entry) (hq : 0 < q.length)
    (hn : p.length < n) (hm : p.length < m) : parseOptions n (p, q, e) = parseOptions m (p, q, e) := by
  induction n generalizing m p q e with
  | zero => omega
  | succ n ih =>
    cases m with
    | zero => omega
    | succ m =>
      simp only [parseOptions]
      cases hs : scanWord p q with
      | error f => rfl
      | ok x =>
        obtain ⟨p', q'⟩ := x
        have hlen := scanWord_len hq hs
        dsimp only
        split
        · rfl
        · rename_i hne
          split
          · rfl
          · have := hlen.2.2 hne
            exact ih m p' q' _ (by omega) (by omega) (by omega)

/-- The steps of `entry::parse` between key and options keep the buffer and shorten the line. -/
def Shrinks (f : Cursor → Except Fault Cursor) : Prop :=
  ∀ p q e p' q' e', f (p, q, e) = .ok (p', q', e') → p'.length ≤ p.length ∧ q'.length = q.length

theorem shrinks_flag (t : ParseType) : Shrinks (parseFlag t) := by
  intro p q e p' q' e' h
  simp only [parseFlag] at h
  split at h
  · cases hs : scanDigit p q with
    | error f => rw [hs] at h; simp at h
    | ok x =>
      obtain ⟨p1, q1⟩ := x
      have := scanDigit_len hs
      rw [hs] at h
      dsimp only at h
      repeat (split at h; · simp at h)
      simp only [Except.ok.injEq, Prod.mk.injEq] at h
      obtain ⟨rfl, rfl, _⟩ := h
      exact this
  · simp only [Except.ok.injEq, Prod.mk.injEq] at h
    obtain ⟨rfl, rfl, _⟩ := h
    simp

theorem shrinks_expire (now : Int64) (t : ParseType) : Shrinks (parseExpire now t) := by
  intro p q e p' q' e' h
  simp only [parseExpire] at h
  split at h
  · cases hs : scanDigit p q with
    | error f => rw [hs] at h; simp at h
    | ok x =>
      obtain ⟨p1, q1⟩ := x
      have := scanDigit_len hs
      rw [hs] at h
      dsimp only at h
      split at h
      · split at h
        · simp at h
        · simp only [Except.ok.injEq, Prod.mk.injEq] at h
          obtain ⟨rfl, rfl, _⟩ := h
          exact this
      · split at h
        · simp at h
        · split at h
          · simp at h
          · simp only [Except.ok.injEq, Prod.mk.injEq] at h
            obtain ⟨rfl, rfl, _⟩ := h
            exact this
  · simp only [Except.ok.injEq, Prod.mk.injEq] at h
    obtain ⟨rfl, rfl, _⟩ := h
    simp

theorem shrinks_size (t : ParseType) : Shrinks (parseSize t) := by
  intro p q e p' q' e' h
  simp only [parseSize] at h
  split at h
  · cases hs : scanDigit p q with
    | error f => rw [hs] at h; simp at h
    | ok x =>
      obtain ⟨p1, q1⟩ := x
      have := scanDigit_len hs
      rw [hs] at h
      dsimp only at h
      split at h
      · simp at h
      · split at h
        · simp at h
        · split at h
          · simp at h
          · split at h
            · simp at h
            · simp only [Except.ok.injEq, Prod.mk.injEq] at h
              obtain ⟨rfl, rfl, _⟩ := h
              exact this
  · simp only [Except.ok.injEq, Prod.mk.injEq] at h
    obtain ⟨rfl, rfl, _⟩ := h
    simp

theorem shrinks_version (t : ParseType) : Shrinks (parseVersion t) := by
  intro p q e p' q' e' h
  simp only [parseVersion] at h
  cases hs : scanDigit p q with
  | error f => rw [hs] at h; simp at h
  | ok x =>
    obtain ⟨p1, q1⟩ := x
    have := scanDigit_len hs
    rw [hs] at h
    dsimp only at h
    split at h
    · split at h
      · simp at h
      · split at h
        · simp at h
        · simp only [Except.ok.injEq, Prod.mk.injEq] at h
          obtain ⟨rfl, rfl, _⟩ := h
          exact this
    · split at h
      · simp at h
      · simp only [Except.ok.injEq, Prod.mk.injEq] at h
        obtain ⟨rfl, rfl, _⟩ := h
        exact this

theorem shrinks_expireGet (now : Int64) (t : ParseType) : Shrinks (parseExpireGet now t) := by
  intro p q e p' q' e' h
  simp only [parseExpireGet] at h
  split at h
  · cases hs : scanDigit p q with
    | error f => rw [hs] at h; simp at h
    | ok x =>
      obtain ⟨p1, q1⟩ := x
      have := scanDigit_len hs
      rw [hs] at h
      dsimp only at h
      split at h
      · split at h
        · simp at h
        · simp only [Except.ok.injEq, Prod.mk.injEq] at h
          obtain ⟨rfl, rfl, _⟩ := h
          exact this
      · simp only [Except.ok.injEq, Prod.mk.injEq] at h
        obtain ⟨rfl, rfl, _⟩ := h
        exact this
  · simp only [Except.ok.injEq, Prod.mk.injEq] at h
    obtain ⟨rfl, rfl, _⟩ := h
    simp

theorem parseKey_blank (p q : Bytes) (e : Entry) :
    parseKey (chSpace :: p, q, e) = parseKey (p, q, e) := by
  simp only [parseKey, scanWord_blank]

theorem parseKey_len {p q p' q' : Bytes} {e e' : Entry} (hq : 0 < q.length)
    (h : parseKey (p, q, e) = .ok (p', q', e')) : p'.length ≤ p.length ∧ q'.length = q.length := by
  simp only [parseKey] at h
  cases hs : scanWord p q with
  | error f => rw [hs] at h; simp at h
  | ok x =>
    obtain ⟨p1, q1⟩ := x
    have := scanWord_len hq hs
    rw [hs] at h
    dsimp only at h
    split at h
    · simp at h
    · simp only [Except.ok.injEq, Prod.mk.injEq] at h
      obtain ⟨rfl, rfl, _⟩ := h
      exact ⟨this.1, this.2.1⟩

theorem entryParse_blank (now : Int64) (t : ParseType) (p q : Bytes) (e : Entry)
    (hq : 0 < q.length) : entryParse now t (chSpace :: p) q e = entryParse now t p q e := by
  simp only [entryParse, parseKey_blank]
  cases h1 : parseKey (p, q, e) with
  | error f => rfl
  | ok c1 =>
    obtain ⟨p1, q1, e1⟩ := c1
    have l1 := parseKey_len hq h1
    rw [Except.bind_ok' rfl, Except.bind_ok' rfl]
    cases h2 : parseFlag t (p1, q1, e1) with
    | error f => rfl
    | ok c2 =>
      obtain ⟨p2, q2, e2⟩ := c2
      have l2 := shrinks_flag t _ _ _ _ _ _ h2
      rw [Except.bind_ok' rfl, Except.bind_ok' rfl]
      cases h3 : parseExpire now t (p2, q2, e2) with
      | error f => rfl
      | ok c3 =>
        obtain ⟨p3, q3, e3⟩ := c3
        have l3 := shrinks_expire now t _ _ _ _ _ _ h3
        rw [Except.bind_ok' rfl, Except.bind_ok' rfl]
        cases h4 : parseSize t (p3, q3, e3) with
        | error f => rfl
        | ok c4 =>
          obtain ⟨p4, q4, e4⟩ := c4
          have l4 := shrinks_size t _ _ _ _ _ _ h4
          rw [Except.bind_ok' rfl, Except.bind_ok' rfl]
          cases h5 : parseVersion t (p4, q4, e4) with
          | error f => rfl
          | ok c5 =>
            obtain ⟨p5, q5, e5⟩ := c5
            have l5 := shrinks_version t _ _ _ _ _ _ h5
            rw [Except.bind_ok' rfl, Except.bind_ok' rfl]
            cases h6 : parseExpireGet now t (p5, q5, e5) with
            | error f => rfl
            | ok c6 =>
              obtain ⟨p6, q6, e6⟩ := c6
              have l6 := shrinks_expireGet now t _ _ _ _ _ _ h6
              rw [Except.bind_ok' rfl, Except.bind_ok' rfl]
              split
              · rw [parseOptions_fuel ((chSpace :: p).length + 1) (p.length + 1) p6 q6 e6 (by omega)
                  (by simp; omega) (by omega)]
              · rfl

theorem parseCount_blank (p q : Bytes) (e : Entry) :
    parseCount (chSpace :: p) q e = parseCount p q e := by
  simp only [parseCount, parseKey_blank]

/-! ### Pushing back -/

theorem readsizeLoop_done {fuel n : Nat} {data : Bytes} {c : Conn} (h : n ≤ data.length) :
    readsizeLoop (fuel + 1) n data c = some (data, c) := by
  simp only [readsizeLoop]
  rw [if_neg (by omega)]

theorem readsizeLoop_first (fuel n : Nat) (c : Conn) (hn : 0 < n) :
    readsizeLoop (fuel + 1) n [] c =
      match c.readForSize n with
      | none => none
      | some (t, c) =>
        if t.length = n then some (t, c)
        else if n ≤ t.length then
          readsizeLoop fuel n (t.take n) (if 0 < t.length - n then c.addBuf (t.drop n) else c)
        else readsizeLoop fuel n t c := by
  simp only [readsizeLoop, List.length_nil, hn, if_true, Nat.sub_zero, true_and, Nat.zero_add,
    List.nil_append]
  rfl

theorem readlineLoop_flush (fuel : Nat) (c : Conn) (hr : c.rest ≠ []) (h : chNl ∉ c.rest)
    (hb : c.lineFromBuf = (c.rest, { c with buf := none })) :
    readlineLoop (fuel + 1) [] c = readlineLoop fuel c.rest { c with buf := none } := by
  rw [readlineLoop]
  have hlast : c.rest.getLast? ≠ some chNl := fun h' => h (List.mem_of_getLast? h')
  simp only [Conn.readForLine, ne_eq, hr, not_false_eq_true, if_true, hb]
  rw [if_neg (by simp [hlast])]
  simp only [← ne_eq, takeWhile_nl_all h, Nat.lt_irrefl, if_false, List.nil_append]

theorem readlineLoop_buffered (fuel : Nat) (c : Conn) (hr : c.rest ≠ []) (l : Bytes)
    (h : c.lineFromBuf.1 = l ++ [chNl]) :
    readlineLoop (fuel + 1) [] c =
      if l.getLast? = some chCr then some (l.dropLast ++ [chNl], c.lineFromBuf.2)
      else some (l ++ [chNl], c.lineFromBuf.2) := by
  rw [readlineLoop]
  simp only [Conn.readForLine, ne_eq, hr, not_false_eq_true, if_true, h]
  rw [if_pos (by simp)]
  simp only [List.dropLast_concat]
  by_cases hcr : l.getLast? = some chCr
  · have hl : l ≠ [] := by rintro rfl; simp at hcr
    have := List.length_pos_iff.2 hl
    rw [if_pos ⟨by simp; omega, hcr⟩, if_pos hcr]
  · rw [if_neg (fun h => hcr h.2), if_neg hcr]

theorem getLast_split {l : Bytes} {x : UInt8} (h : l.getLast? = some x) : l = l.dropLast ++ [x] := by
  have hl : l ≠ [] := by rintro rfl; simp at h
  have h2 := List.getLast?_eq_some_getLast hl
  rw [h] at h2
  have h3 := List.dropLast_concat_getLast hl
  rw [← Option.some.inj h2] at h3
  exact h3.symm

/-- The magic byte: after reading and pushing it back the stream is as before. -/
theorem Conn.magic_spec (c : Conn) (hok : c.Ok) (hfresh : c.Fresh) :
    match c.readsize 1 with
    | none => c.stream = []
    | some (m, c') => (c'.pushBack m).stream = c.stream ∧ (c'.pushBack m).Ok ∧
        (c'.pushBack m).rest ≠ [] ∧ m = c.stream.take 1 := by
  have hspec := Conn.readsize_spec c hok 1
  cases hx : c.readsize 1 with
  | none =>
    rw [hx] at hspec
    exact List.length_eq_zero_iff.1 (by simpa using hspec)
  | some x =>
    obtain ⟨m, c'⟩ := x
    rw [hx] at hspec
    obtain ⟨s1, s2, s3, s4⟩ := hspec
    have hm : m.length = 1 := by rw [s1, List.length_take]; omega
    -- either the buffer was moved over the byte, or it has nothing before its position
    have key : (∃ w pos, c'.buf = some (w, pos + 1) ∧ (w.drop pos) = m ++ w.drop (pos + 1)) ∨
        (c'.buf = none ∨ ∃ w, c'.buf = some (w, 0)) := by
      simp only [Conn.readsize, readsizeLoop_first _ 1 c (by omega)] at hx
      simp only [Conn.readForSize] at hx
      by_cases hr : c.rest = []
      · simp only [hr, ne_eq, not_true_eq_false, if_false, Conn.fromNet,
          if_neg (show ¬ (1024 < 1) by omega)] at hx
        cases hn : c.net with
        | nil => rw [hn] at hx; simp at hx
        | cons s net =>
          rw [hn] at hx
          have hs : 0 < s.length := List.length_pos_iff.2 (hok.1 s (by rw [hn]; simp))
          dsimp only at hx
          by_cases h1 : 0 < 1 ∧ 1 < s.length ∧ s.length < 1024 ∧ c.buf = none
          · rw [if_pos h1] at hx
            dsimp only at hx
            rw [if_pos (by simp; omega)] at hx
            simp only [Option.some.injEq, Prod.mk.injEq] at hx
            obtain ⟨rfl, rfl⟩ := hx
            left
            exact ⟨s, 0, rfl, by rw [List.drop_zero, List.take_append_drop]⟩
          · rw [if_neg h1] at hx
            dsimp only at hx
            by_cases h2 : s.length = 1
            · rw [if_pos h2] at hx
              simp only [Option.some.injEq, Prod.mk.injEq] at hx
              obtain ⟨rfl, rfl⟩ := hx
              right; left
              rcases hfresh with h | h | h
              · exact h
              · exact absurd hr h
              · exact absurd h2 (h s net hn)
            · rw [if_neg h2, if_pos (by omega),
                readsizeLoop_done (fuel := (s :: net).length + 1) (n := 1) (data := s.take 1)
                  (by rw [List.length_take]; omega),
                if_pos (by omega)] at hx
              simp only [Option.some.injEq, Prod.mk.injEq] at hx
              obtain ⟨rfl, rfl⟩ := hx
              right; right
              exact ⟨_, rfl⟩
      · simp only [ne_eq, hr, not_false_eq_true, if_true, Conn.sizeFromBuf] at hx
        have hlen := List.length_pos_iff.2 hr
        by_cases h1 : 0 < 1 ∧ 1 < c.rest.length
        · obtain ⟨w, pos, hb⟩ : ∃ w pos, c.buf = some (w, pos) := by
            cases hb : c.buf with
            | none => simp [Conn.rest, hb] at hr
            | some x => exact ⟨x.1, x.2, rfl⟩
          simp only [if_pos h1, hb] at hx
          rw [if_pos (by simp; omega)] at hx
          simp only [Option.some.injEq, Prod.mk.injEq] at hx
          obtain ⟨rfl, rfl⟩ := hx
          left
          refine ⟨w, pos, rfl, ?_⟩
          have : c.rest = w.drop pos := by simp [Conn.rest, hb]
          rw [this, ← List.drop_drop, List.take_append_drop]
        · simp only [if_neg h1] at hx
          rw [if_pos (by omega)] at hx
          simp only [Option.some.injEq, Prod.mk.injEq] at hx
          obtain ⟨rfl, rfl⟩ := hx
          right; left; rfl
    have hst : m ++ c'.stream = c.stream := by rw [s1, s2, List.take_append_drop]
    have hm0 : m ≠ [] := by rintro rfl; simp at hm
    dsimp only
    rcases key with ⟨w, pos, hb, hw⟩ | hb | ⟨w, hb⟩
    · have hpb : c'.pushBack m = { c' with buf := some (w, pos) } := by
        simp only [Conn.pushBack, hb, hm]
        rw [if_pos (by omega)]
        simp
      rw [hpb]
      have hr' : ({ c' with buf := some (w, pos) } : Conn).rest = m ++ c'.rest := by
        simp only [Conn.rest, hb]; exact hw
      refine ⟨?_, ⟨s4.1, ?_⟩, ?_, s1⟩
      · simp only [Conn.stream, hr'] at hst ⊢
        rw [List.append_assoc]; exact hst
      · intro w' pos' hb'
        simp only [Option.some.injEq, Prod.mk.injEq] at hb'
        obtain ⟨rfl, rfl⟩ := hb'
        have := s4.2 _ _ hb
        omega
      · rw [hr']; simp [hm0]
    · have hpb : c'.pushBack m = { c' with buf := some (m, 0) } := by
        simp only [Conn.pushBack, hb]
      have hcr : c'.rest = [] := by simp [Conn.rest, hb]
      rw [hpb]
      refine ⟨?_, ⟨s4.1, ?_⟩, ?_, s1⟩
      · simp only [Conn.stream, hcr, List.nil_append] at hst ⊢
        simpa [Conn.rest] using hst
      · intro w' pos' hb'
        simp only [Option.some.injEq, Prod.mk.injEq] at hb'
        omega
      · simp [Conn.rest, hm0]
    · have hpb : c'.pushBack m = { c' with buf := some (m ++ c'.rest, 0) } := by
        simp only [Conn.pushBack, hb, hm]
        rw [if_neg (by omega)]
      rw [hpb]
      refine ⟨?_, ⟨s4.1, ?_⟩, ?_, s1⟩
      · simp only [Conn.stream] at hst ⊢
        simp only [Conn.rest, List.drop_zero] at hst ⊢
        rw [List.append_assoc]; exact hst
      · intro w' pos' hb'
        simp only [Option.some.injEq, Prod.mk.injEq] at hb'
        omega
      · simp [Conn.rest, hm0]

/-- The loop of `readline` started with something in `r` leaves a buffer that has nothing
before its position. -/
theorem readlineLoop_buf (fuel : Nat) (r : Bytes) (c : Conn) (hb : c.buf = none)
    (l : Bytes) (c' : Conn) (h : readlineLoop fuel r c = some (l, c')) :
    c'.buf = none ∨ ∃ w, c'.buf = some (w, 0) := by
  induction fuel generalizing r c with
  | zero => simp [readlineLoop] at h
  | succ fuel ih =>
    simp only [readlineLoop] at h
    have hr : c.rest = [] := by simp [Conn.rest, hb]
    simp only [Conn.readForLine, hr, ne_eq, not_true_eq_false, if_false, Conn.fromNet_zero] at h
    cases hn : c.net with
    | nil => rw [hn] at h; simp at h
    | cons s net =>
      rw [hn] at h
      simp only [Bool.true_eq_false, false_and, if_false] at h
      split at h
      · simp only [Option.some.injEq, Prod.mk.injEq] at h
        obtain ⟨_, rfl⟩ := h
        split
        · right; exact ⟨_, rfl⟩
        · left; exact hb
      · exact ih _ { c with net := net } hb h

/-- Reading a line with something in the buffer, and pushing back an end of it: the stream
starts with what was pushed back, or, if the line ended in "\r\n", with as many bytes of the
line as they were on the network. -/
theorem Conn.line_back (c : Conn) (hok : c.Ok) (hr : c.rest ≠ []) (pre body : Bytes) (c' : Conn)
    (h : c.readline = some (pre ++ body ++ [chNl], c')) :
    ((c'.pushBack (body ++ [chNl])).stream = body ++ chNl :: c'.stream ∨
      ((c'.pushBack (body ++ [chNl])).stream = (body ++ [chCr, chNl]).drop 1 ++ c'.stream)) ∧
      (c'.pushBack (body ++ [chNl])).Ok := by
  have hspec := Conn.readline_spec c hok
  rw [h] at hspec
  obtain ⟨h1, hok'⟩ := hspec
  have hfresh : ∀ c' : Conn, c'.Ok → (c'.buf = none ∨ ∃ w, c'.buf = some (w, 0)) →
      (c'.pushBack (body ++ [chNl])).stream = body ++ chNl :: c'.stream ∧
      (c'.pushBack (body ++ [chNl])).Ok := by
    intro c' hok' hb
    rcases hb with hb | ⟨w, hb⟩
    · have : c'.pushBack (body ++ [chNl]) = { c' with buf := some (body ++ [chNl], 0) } := by
        simp only [Conn.pushBack, hb]
      rw [this]
      have hcr : c'.rest = [] := by simp [Conn.rest, hb]
      refine ⟨by simp [Conn.stream, Conn.rest, hb], hok'.1, ?_⟩
      intro w' pos' hb'
      simp only [Option.some.injEq, Prod.mk.injEq] at hb'
      omega
    · have : c'.pushBack (body ++ [chNl]) = { c' with buf := some (body ++ [chNl] ++ c'.rest, 0) } := by
        simp only [Conn.pushBack, hb]
        rw [if_neg (by simp)]
      rw [this]
      refine ⟨by simp [Conn.stream, Conn.rest], hok'.1, ?_⟩
      intro w' pos' hb'
      simp only [Option.some.injEq, Prod.mk.injEq] at hb'
      omega
  simp only [Conn.readline] at h
  rcases Conn.lineFromBuf_spec hok hr with ⟨l, rest, a1, a2, a3, a4, a5, a6, w, pos, a7, a8⟩ | ⟨a1, a2⟩
  · rw [readlineLoop_buffered _ c hr l a3] at h
    have hc' : c' = c.lineFromBuf.2 := by
      split at h <;> simp only [Option.some.injEq, Prod.mk.injEq] at h <;> exact h.2.symm
    have hdrop : w.drop pos = l ++ chNl :: rest := by
      rw [← a1]; simp [Conn.rest, a7]
    have hpos := hok.2 w pos a7
    have hbuf' : c'.buf = some (w, pos + (l.length + 1)) := by rw [hc']; exact a8
    have hrest' : c'.rest = rest := by rw [hc']; exact a4
    have hwlen : w.length = pos + l.length + 1 + rest.length := by
      have := congrArg List.length hdrop
      simp only [List.length_drop, List.length_append, List.length_cons] at this
      omega
    by_cases hcr : l.getLast? = some chCr
    · -- "\r\n"
      have hl : l ≠ [] := by rintro rfl; simp at hcr
      have hlen := List.length_pos_iff.2 hl
      rw [if_pos hcr] at h
      simp only [Option.some.injEq, Prod.mk.injEq] at h
      have hdl : l.dropLast = pre ++ body := by
        have := congrArg List.dropLast h.1
        simpa using this
      have hl2 : l = pre ++ body ++ [chCr] := by
        rw [← hdl]
        exact getLast_split hcr
      have hblen : l.length = pre.length + body.length + 1 := by rw [hl2]; simp; omega
      have hpb : c'.pushBack (body ++ [chNl]) =
          { c' with buf := some (w, pos + (pre.length + 1)) } := by
        simp only [Conn.pushBack, hbuf']
        rw [if_pos (by simp; omega)]
        congr 2
        congr 1
        simp only [List.length_append, List.length_singleton]
        omega
      rw [hpb]
      refine ⟨.inr ?_, hok'.1, ?_⟩
      · simp only [Conn.stream, hrest']
        have : ({ c' with buf := some (w, pos + (pre.length + 1)) } : Conn).rest =
            (body ++ [chCr, chNl]).drop 1 ++ rest := by
          simp only [Conn.rest]
          rw [← List.drop_drop, hdrop, hl2]
          rw [show pre ++ body ++ [chCr] ++ chNl :: rest = pre ++ ((body ++ [chCr, chNl]) ++ rest) by
            simp]
          rw [show pre.length + 1 = pre.length + 1 from rfl, ← List.drop_drop, List.drop_left]
          rw [List.drop_append_of_le_length (by simp)]
        rw [this, List.append_assoc]
      · intro w' pos' hb'
        simp only [Option.some.injEq, Prod.mk.injEq] at hb'
        obtain ⟨rfl, rfl⟩ := hb'
        omega
    · rw [if_neg hcr] at h
      simp only [Option.some.injEq, Prod.mk.injEq] at h
      have hdl : l = pre ++ body := by
        have := congrArg List.dropLast h.1
        simpa using this
      have hblen : l.length = pre.length + body.length := by rw [hdl]; simp
      have hpb : c'.pushBack (body ++ [chNl]) =
          { c' with buf := some (w, pos + pre.length) } := by
        simp only [Conn.pushBack, hbuf']
        rw [if_pos (by simp; omega)]
        congr 2
        congr 1
        simp only [List.length_append, List.length_singleton]
        omega
      rw [hpb]
      refine ⟨.inl ?_, hok'.1, ?_⟩
      · simp only [Conn.stream, hrest']
        have : ({ c' with buf := some (w, pos + pre.length) } : Conn).rest =
            body ++ chNl :: rest := by
          simp only [Conn.rest]
          rw [← List.drop_drop, hdrop, hdl, List.append_assoc, List.drop_left]
        rw [this]; simp
      · intro w' pos' hb'
        simp only [Option.some.injEq, Prod.mk.injEq] at hb'
        obtain ⟨rfl, rfl⟩ := hb'
        omega
  · rw [readlineLoop_flush _ c hr a1 a2] at h
    have := hfresh c' hok' (readlineLoop_buf _ _ { c with buf := none } rfl _ _ h)
    exact ⟨.inl this.1, this.2⟩

/-! ### Requests -/

/-- The rest of a line behind its first word. -/
theorem parseServer_rest {line first : Bytes} (hf : 16 ≤ first.length) {path : Option (List Bytes)}
    {w rest : Bytes} (h : parseServer line first = .ok (path, w, rest)) (hw : w.length < 15)
    (hline : ∃ body, line = body ++ [chNl]) (h0 : 0 ∉ line) (hnl : chNl ∉ line.dropLast) :
    ∃ pre body, line = pre ++ body ++ [chNl] ∧ rest = body ++ [chNl] ∧
      (body = [] ∨ ∃ b, body = chSpace :: b) := by
  obtain ⟨body0, hb0⟩ := hline
  -- the part before the first word
  obtain ⟨px, cut, hcut, hscan⟩ : ∃ px cut, line = px ++ cut ∧ ∃ first', cut ≠ [] ∧
      scanWord cut first = .ok (rest, first') ∧ cstr first' = w := by
    have step : ∀ px cut : Bytes, line = px ++ cut → cut ≠ [] → ∀ po : Option (List Bytes),
        (match scanWord cut first with
          | .error f => Except.error f
          | .ok (rest, first) => Except.ok (po, cstr first, rest)) =
          .ok (path, w, rest) →
        ∃ px cut, line = px ++ cut ∧ ∃ first', cut ≠ [] ∧
          scanWord cut first = .ok (rest, first') ∧ cstr first' = w := by
      intro px cut h1 h2 po h3
      refine ⟨px, cut, h1, ?_⟩
      cases hs : scanWord cut first with
      | error f => rw [hs] at h3; simp at h3
      | ok x =>
        obtain ⟨r', f'⟩ := x
        rw [hs] at h3
        simp only [Except.ok.injEq, Prod.mk.injEq] at h3
        exact ⟨f', h2, by rw [h3.2.2], h3.2.1⟩
    simp only [parseServer] at h
    cases hl : line with
    | nil => rw [hb0] at hl; simp at hl
    | cons c b =>
      rw [hl] at h
      dsimp only at h
      by_cases hc : c = chLt ∧ chGt ∈ cstr b
      · rw [if_pos hc] at h
        dsimp only at h
        have hgt : chGt ∈ b := (List.takeWhile_prefix _).subset hc.2
        have hdw : b.dropWhile (· ≠ chGt) = chGt :: (b.dropWhile (· ≠ chGt)).drop 1 := by
          clear h hb0 hl hc hnl h0
          induction b with
          | nil => simp at hgt
          | cons x b ih =>
            by_cases hx : x = chGt
            · simp [hx]
            · have : chGt ∈ b := by
                rcases List.mem_cons.1 hgt with h | h
                · exact absurd h.symm hx
                · exact h
              have := ih this
              simp only [ne_eq, decide_not] at this ⊢
              rw [List.dropWhile_cons, if_pos (by simp [hx])]
              exact this
        have hsplit : c :: b = (c :: b.takeWhile (· ≠ chGt) ++ [chGt]) ++
            (b.dropWhile (· ≠ chGt)).drop 1 := by
          rw [List.append_assoc, List.singleton_append, ← hdw, List.cons_append,
            List.takeWhile_append_dropWhile]
        have := step (c :: b.takeWhile (· ≠ chGt) ++ [chGt]) ((b.dropWhile (· ≠ chGt)).drop 1)
          (by rw [hl]; exact hsplit)
          (by
            intro h'
            rw [h', List.append_nil] at hsplit
            have h1 : (c :: b).getLast? = some chGt := by
              rw [hsplit, List.getLast?_concat]
            rw [← hl, hb0, List.getLast?_concat] at h1
            exact absurd h1 (by decide))
          (some (splitComma (b.takeWhile (· ≠ chGt)))) h
        rw [← hl]; exact this
      · rw [if_neg hc] at h
        dsimp only at h
        have := step [] (c :: b) (by rw [hl]; rfl) (by simp) none h
        rw [← hl]; exact this
  obtain ⟨first', hcne, hscan, hcs⟩ := hscan
  obtain ⟨k, tok, rest', s1, s2, s3, s4, s5⟩ := C36_next_word cut first
    (by rintro rfl; simp at hf)
  simp only [scanWord, s5, Except.ok.injEq, Prod.mk.injEq] at hscan
  have hdrop : cut.drop (k + tok.length) = rest' := by
    rw [s1, show k + tok.length = (List.replicate k chSpace ++ tok).length by simp, List.drop_left]
  rw [hdrop] at hscan
  obtain ⟨rfl, rfl⟩ := hscan
  rw [cstr_append (fun c hc => (s2 c hc).1)] at hcs
  subst hcs
  have hlines : line = (px ++ List.replicate k chSpace ++ tok) ++ rest' := by
    rw [hcut, s1]; simp
  have hr : rest' ≠ [] := by
    rintro rfl
    rw [List.append_nil] at hlines
    have hlast : (px ++ List.replicate k chSpace ++ tok).getLast? = some chNl := by
      rw [← hlines, hb0, List.getLast?_concat]
    have hcl : cut.getLast? = some chNl := by
      rw [hb0] at hcut
      have h1 : (px ++ cut).getLast? = some chNl := by rw [← hcut, List.getLast?_concat]
      rw [List.getLast?_append] at h1
      cases hx : cut.getLast? with
      | none => exact absurd (List.getLast?_eq_none_iff.1 hx) hcne
      | some x => rw [hx] at h1; simpa using h1
    rw [s1, List.append_nil] at hcl
    have := List.mem_of_getLast? hcl
    rcases List.mem_append.1 this with h | h
    · exact absurd (List.eq_of_mem_replicate h) (by decide)
    · exact (s2 _ h).2.2 rfl
  have hlastr : rest'.getLast? = some chNl := by
    have h1 : ((px ++ List.replicate k chSpace ++ tok) ++ rest').getLast? = some chNl := by
      rw [← hlines, hb0, List.getLast?_concat]
    rw [List.getLast?_append] at h1
    cases hx : rest'.getLast? with
    | none => exact absurd (List.getLast?_eq_none_iff.1 hx) hr
    | some x => rw [hx] at h1; simpa using h1
  refine ⟨px ++ List.replicate k chSpace ++ tok, rest'.dropLast, ?_, getLast_split hlastr, ?_⟩
  · rw [List.append_assoc, ← getLast_split hlastr]; exact hlines
  · rcases s4 with h | ⟨c, r, h, hc⟩ | h
    · exact absurd h hr
    · rcases hc with hc | hc | hc
      · exact absurd (by rw [hlines, h, hc]; simp) h0
      · cases r with
        | nil => rw [h, hc] at hlastr; exact absurd hlastr (by decide)
        | cons x r => right; rw [h, hc]; exact ⟨(x :: r).dropLast, rfl⟩
      · cases r with
        | nil => left; rw [h]; rfl
        | cons x r =>
          exfalso
          apply hnl
          rw [hlines, List.dropLast_append_of_ne_nil hr, h, hc]
          simp
    · omega

/-- The parameters on a connection are those on the stream. -/
theorem Conn.parseParams_spec {now : Int64} {cmd : WriteCmd} {path : List Bytes} {q : Bytes}
    {c : Conn} (hok : c.Ok) {line s : Bytes} (hl : readLine c.stream = some (line, s)) :
    match Conn.parseParams now cmd path q c with
    | .error f => Flare.parseParams now cmd path line q s = .error f
    | .ok (r, c') => Flare.parseParams now cmd path line q s = .ok (r, c'.stream) ∧ c'.Ok := by
  have h := Conn.readline_spec c hok
  simp only [Conn.parseParams]
  cases hr : c.readline with
  | none => rw [hr] at h; rw [hl] at h; simp at h
  | some x =>
    obtain ⟨l, c1⟩ := x
    rw [hr] at h
    dsimp only at h
    rw [hl] at h
    obtain ⟨h, hok1⟩ := h
    simp only [Option.some.injEq, Prod.mk.injEq] at h
    obtain ⟨rfl, rfl⟩ := h
    dsimp only
    cases hk : cmd.kind with
    | store =>
      simp only [Flare.parseParams, hk]
      cases he : entryParse now (if cmd = .cas then .cas else .set) line q { key := [] } with
      | error f => rfl
      | ok e =>
        dsimp only
        by_cases hi : e.size.toNat + 2 > intMax
        · simp only [if_pos hi, readSize]
        · simp only [if_neg hi, readSize]
          have hsz := Conn.readsize_spec c1 hok1 (e.size.toNat + 2)
          cases hz : c1.readsize (e.size.toNat + 2) with
          | none =>
            rw [hz] at hsz
            rw [if_pos hsz]
          | some x =>
            obtain ⟨d, c2⟩ := x
            rw [hz] at hsz
            obtain ⟨a, b, d', e'⟩ := hsz
            rw [if_neg (by omega)]
            refine ⟨?_, e'⟩
            rw [a, b]
    | count =>
      simp only [Flare.parseParams, hk]
      cases he : parseCount line q { key := [] } with
      | error f => rfl
      | ok e => exact ⟨rfl, hok1⟩
    | delete =>
      simp only [Flare.parseParams, hk]
      cases he : entryParse now .delete line q { key := [] } with
      | error f => rfl
      | ok e => exact ⟨rfl, hok1⟩
    | touch =>
      simp only [Flare.parseParams, hk]
      cases he : entryParse now .touch line q { key := [] } with
      | error f => rfl
      | ok e =>
        dsimp only
        by_cases ho : e.option = 0 ∨ e.option = optNoreply
        · simp only [if_pos ho]
          exact ⟨trivial, hok1⟩
        · simp only [if_neg ho]

theorem parseParams_blank (now : Int64) (cmd : WriteCmd) (path : List Bytes) (p q s : Bytes)
    (hq : 0 < q.length) :
    parseParams now cmd path (chSpace :: p) q s = parseParams now cmd path p q s := by
  simp only [parseParams, entryParse_blank _ _ _ _ _ hq, parseCount_blank]

theorem writeCmdOf_len {w : Bytes} {cmd : WriteCmd} (h : writeCmdOf w = some cmd) :
    w.length < 15 := by
  have h1 := List.find?_some h
  have : w = cmd.ident := by simpa [eq_comm] using h1
  rw [this]
  cases cmd <;> decide

/-- One request on a connection is that request on the stream. -/
theorem Conn.decodeWrite_spec {now : Int64} {first q : Bytes} (hf : 16 ≤ first.length)
    (hq : 0 < q.length) {c : Conn} (hok : c.Ok) (hfresh : c.Fresh) (hclean : CleanLine c.stream)
    (hmagic : c.stream.head? ≠ some 0x80) :
    match Conn.decodeWrite now first q c with
    | .error f => Flare.decodeWrite now first q c.stream = .error f
    | .ok (r, c') => Flare.decodeWrite now first q c.stream = .ok (r, c'.stream) ∧ c'.Ok := by
  have hm := Conn.magic_spec c hok hfresh
  simp only [Conn.decodeWrite, Conn.parseServer]
  cases hr : c.readsize 1 with
  | none =>
    rw [hr] at hm
    dsimp only at hm ⊢
    rw [hm]
    simp [Flare.decodeWrite, readLine]
  | some x =>
    obtain ⟨m, c1⟩ := x
    rw [hr] at hm
    obtain ⟨m1, m2, m3, m4⟩ := hm
    have hm80 : m ≠ [0x80] := by
      rw [m4]
      intro h
      apply hmagic
      cases hs : c.stream with
      | nil => rw [hs] at h; simp at h
      | cons x xs => rw [hs] at h; simpa using h
    dsimp only
    rw [if_neg hm80]
    have hl := Conn.readline_spec (c1.pushBack m) m2
    rw [m1] at hl
    cases hrl : (c1.pushBack m).readline with
    | none =>
      rw [hrl] at hl
      dsimp only at hl ⊢
      simp [Flare.decodeWrite, hl]
    | some x =>
      obtain ⟨line, c2⟩ := x
      rw [hrl] at hl
      obtain ⟨hl, hok2⟩ := hl
      have hcl := hclean _ _ hl
      dsimp only
      simp only [Flare.decodeWrite, hl]
      cases hp : Flare.parseServer line first with
      | error f => rfl
      | ok x =>
        obtain ⟨path, w, rest⟩ := x
        dsimp only
        cases hw : writeCmdOf w with
        | none => rfl
        | some cmd =>
          dsimp only
          have hline : ∃ body, line = body ++ [chNl] ∧ chNl ∉ body := by
            by_cases hn : chNl ∈ c.stream
            · obtain ⟨l, r, a, b⟩ := nl_split _ hn
              rw [a, readLine_nl b] at hl
              simp only [Option.some.injEq, Prod.mk.injEq] at hl
              refine ⟨stripCr l, hl.1.symm, ?_⟩
              simp only [stripCr]
              split
              · exact fun h => b ((List.dropLast_prefix _).subset h)
              · exact b
            · rw [readLine_none hn] at hl; simp at hl
          obtain ⟨body0, hb0, hnl0⟩ := hline
          obtain ⟨pre, body, e1, e2, e3⟩ := parseServer_rest hf hp (writeCmdOf_len hw)
            ⟨body0, hb0⟩ hcl.1 (by rw [hb0]; simpa using hnl0)
          have hnb : chNl ∉ pre ++ body := by
            have : body0 = pre ++ body := by
              have := congrArg List.dropLast (hb0.symm.trans e1)
              simpa using this
            rw [← this]; exact hnl0
          have hnb2 : chNl ∉ body := fun h => hnb (by simp [h])
          have hlast : body.getLast? ≠ some chCr := by
            intro h
            apply hcl.2
            have hbn : body ≠ [] := by rintro rfl; simp at h
            rw [e1, List.dropLast_concat]
            rw [getLast_split h, ← List.append_assoc]
            simp
          rw [e1] at hrl
          have hback := Conn.line_back (c1.pushBack m) m2 m3 pre body c2 hrl
          rw [e2]
          obtain ⟨hback, hok3⟩ := hback
          rcases hback with hb | hb
          · have hrd : readLine (c2.pushBack (body ++ [chNl])).stream =
                some (body ++ [chNl], c2.stream) := by
              rw [hb, readLine_nl hnb2]
              simp [stripCr, hlast]
            exact Conn.parseParams_spec hok3 hrd
          · rcases e3 with rfl | ⟨b, rfl⟩
            · have hrd : readLine (c2.pushBack ([] ++ [chNl])).stream =
                  some ([chNl], c2.stream) := by
                rw [hb]
                exact readLine_nl (l := []) (by simp)
              exact Conn.parseParams_spec hok3 hrd
            · have hnb3 : chNl ∉ b ++ [chCr] := by
                intro h
                rcases List.mem_append.1 h with h | h
                · exact hnb2 (by simp [h])
                · exact absurd h (by decide)
              have hrd : readLine (c2.pushBack (chSpace :: b ++ [chNl])).stream =
                  some (b ++ [chNl], c2.stream) := by
                rw [hb]
                have : (chSpace :: b ++ [chCr, chNl]).drop 1 ++ c2.stream =
                    (b ++ [chCr]) ++ chNl :: c2.stream := by simp
                rw [this, readLine_nl hnb3]
                simp [stripCr]
              have := Conn.parseParams_spec (now := now) (cmd := cmd) (path := path.getD [])
                (q := q) hok3 hrd
              rw [List.cons_append, parseParams_blank _ _ _ _ _ _ hq]
              exact this

end Flare
