import Verif.Lemmas.TextLines
import Verif.Spec.Connection

/-! Lemmas on connections. -/
set_option linter.unusedSimpArgs false
set_option linter.unusedVariables false
namespace Flare

theorem takeWhile_nl {l rest : Bytes} (h : chNl ∉ l) :
    (l ++ chNl :: rest).takeWhile (· ≠ chNl) = l := by
  rw [List.takeWhile_append_of_pos]
  · simp
  · intro x hx
    simp only [ne_eq, decide_not, Bool.not_eq_true', decide_eq_false_iff_not]
    rintro rfl; exact h hx

theorem takeWhile_nl_all {l : Bytes} (h : chNl ∉ l) : l.takeWhile (· ≠ chNl) = l := by
  have := List.takeWhile_append_of_pos (p := fun x : UInt8 => decide (x ≠ chNl)) (l₁ := l) (l₂ := [])
    (by
      intro x hx
      simp only [ne_eq, decide_not, Bool.not_eq_true', decide_eq_false_iff_not]
      rintro rfl; exact h hx)
  simpa using this

theorem nl_split (s : Bytes) (h : chNl ∈ s) : ∃ l rest, s = l ++ chNl :: rest ∧ chNl ∉ l := by
  induction s with
  | nil => simp at h
  | cons c s ih =>
    by_cases hc : c = chNl
    · exact ⟨[], s, by simp [hc], by simp⟩
    · have : chNl ∈ s := by
        rcases List.mem_cons.1 h with h | h
        · exact absurd h.symm hc
        · exact h
      obtain ⟨l, rest, h1, h2⟩ := ih this
      refine ⟨c :: l, rest, by rw [h1]; rfl, ?_⟩
      simp only [List.mem_cons, not_or]
      exact ⟨fun h => hc h.symm, h2⟩

/-- One carriage return at the end removed. -/
def stripCr (l : Bytes) : Bytes := if l.getLast? = some chCr then l.dropLast else l

theorem readLine_nl {l rest : Bytes} (h : chNl ∉ l) :
    readLine (l ++ chNl :: rest) = some (stripCr l ++ [chNl], rest) := by
  simp only [readLine, takeWhile_nl h, List.drop_left, stripCr]

theorem readLine_none {s : Bytes} (h : chNl ∉ s) : readLine s = none := by
  simp only [readLine, takeWhile_nl_all h, List.drop_length]

theorem Conn.rest_addBuf (c : Conn) (p : Bytes) : (c.addBuf p).rest = c.rest ++ p := by
  simp [Conn.addBuf, Conn.rest]

theorem Conn.ok_addBuf {c : Conn} (h : c.Ok) (p : Bytes) : (c.addBuf p).Ok := by
  refine ⟨h.1, ?_⟩
  intro w pos hb
  simp only [Conn.addBuf, Option.some.injEq, Prod.mk.injEq] at hb
  omega

theorem append_nl_split {a b l rest : Bytes} (h : a ++ b = l ++ chNl :: rest) (ha : chNl ∉ a)
    (hl : chNl ∉ l) : ∃ l', l = a ++ l' ∧ b = l' ++ chNl :: rest := by
  rcases List.append_eq_append_iff.1 h with ⟨as, h1, h2⟩ | ⟨bs, h1, h2⟩
  · exact ⟨as, h1, h2⟩
  · cases bs with
    | nil => exact ⟨[], by simpa using h1.symm, by simpa using h2.symm⟩
    | cons b' bs =>
      simp only [List.cons_append, List.cons.injEq] at h2
      exact absurd (by rw [h1, ← h2.1]; simp) ha

/-- What the buffer gives in readline mode. -/
theorem Conn.lineFromBuf_spec {c : Conn} (hok : c.Ok) (hr : c.rest ≠ []) :
    (∃ l rest, c.rest = l ++ chNl :: rest ∧ chNl ∉ l ∧ c.lineFromBuf.1 = l ++ [chNl] ∧
      c.lineFromBuf.2.rest = rest ∧ c.lineFromBuf.2.net = c.net ∧ c.lineFromBuf.2.Ok ∧
      ∃ w pos, c.buf = some (w, pos) ∧ c.lineFromBuf.2.buf = some (w, pos + (l.length + 1))) ∨
    (chNl ∉ c.rest ∧ c.lineFromBuf = (c.rest, { c with buf := none })) := by
  by_cases hn : chNl ∈ c.rest
  · left
    obtain ⟨l, rest, h1, h2⟩ := nl_split _ hn
    obtain ⟨w, pos, hb⟩ : ∃ w pos, c.buf = some (w, pos) := by
      cases hb : c.buf with
      | none => simp [Conn.rest, hb] at hr
      | some x => exact ⟨x.1, x.2, rfl⟩
    have hlb : c.lineFromBuf = (l ++ [chNl], { c with buf := some (w, pos + (l.length + 1)) }) := by
      simp only [Conn.lineFromBuf, h1, takeWhile_nl h2, hb]
      rw [if_pos (by simp)]
      congr 1
      rw [show l ++ chNl :: rest = (l ++ [chNl]) ++ rest by simp,
        show l.length + 1 = (l ++ [chNl]).length by simp, List.take_left]
    have hd : w.drop pos = l ++ chNl :: rest := by
      rw [← h1]; simp [Conn.rest, hb]
    refine ⟨l, rest, h1, h2, by rw [hlb], ?_, by rw [hlb], ?_, w, pos, hb, by rw [hlb]⟩
    · rw [hlb]
      simp only [Conn.rest]
      rw [← List.drop_drop, hd]
      have : l.length + 1 = (l ++ [chNl]).length := by simp
      rw [this, show l ++ chNl :: rest = (l ++ [chNl]) ++ rest by simp, List.drop_left]
    · rw [hlb]
      refine ⟨hok.1, ?_⟩
      intro w' pos' hb'
      simp only [Option.some.injEq, Prod.mk.injEq] at hb'
      have := congrArg List.length hd
      simp only [List.length_drop, List.length_append, List.length_cons] at this
      obtain ⟨rfl, rfl⟩ := hb'
      omega
  · right
    refine ⟨hn, ?_⟩
    simp only [Conn.lineFromBuf, takeWhile_nl_all hn]
    rw [if_neg (by omega)]

theorem Conn.ok_clear {c : Conn} (h : c.Ok) : ({ c with buf := none } : Conn).Ok :=
  ⟨h.1, fun _ _ hb => by simp at hb⟩

theorem Conn.fromNet_zero (c : Conn) : c.fromNet 0 =
    match c.net with
    | [] => none
    | s :: net => some (s, { c with net := net }) := by
  simp only [Conn.fromNet]
  rw [if_neg (by omega)]
  cases c.net with
  | nil => rfl
  | cons s net => simp

theorem stripCr_append {a b : Bytes} (hb : b ≠ []) : stripCr (a ++ b) = a ++ stripCr b := by
  simp only [stripCr]
  have hgl : (a ++ b).getLast? = b.getLast? := by
    rw [List.getLast?_append]
    cases hx : b.getLast? with
    | none => exact absurd (List.getLast?_eq_none_iff.1 hx) hb
    | some x => rfl
  rw [hgl]
  split
  · rw [List.dropLast_append_of_ne_nil hb]
  · rfl

/-- The loop of `readline` reads a line of the stream. -/
theorem readlineLoop_spec (fuel : Nat) (r : Bytes) (c : Conn) (hok : c.Ok) (hr : chNl ∉ r)
    (hrest : r = [] ∨ c.rest = []) (hf : c.net.length + (if c.rest = [] then 0 else 1) < fuel) :
    match readlineLoop fuel r c with
    | none => readLine (r ++ c.stream) = none
    | some (l, c') => readLine (r ++ c.stream) = some (l, c'.stream) ∧ c'.Ok := by
  induction fuel generalizing r c with
  | zero => omega
  | succ fuel ih =>
    simp only [readlineLoop]
    by_cases hb : c.rest = []
    · -- from the socket
      simp only [Conn.readForLine, hb, ne_eq, not_true_eq_false, if_false, Conn.fromNet_zero]
      cases hn : c.net with
      | nil =>
        simp only [Conn.stream, hb, hn, List.flatten_nil, List.append_nil]
        exact readLine_none hr
      | cons s net =>
        simp only [Bool.true_eq_false, false_and, if_false]
        have hok' : ({ c with net := net } : Conn).Ok := by
          refine ⟨fun x hx => hok.1 x (by rw [hn]; simp [hx]), hok.2⟩
        have hrest' : ({ c with net := net } : Conn).rest = [] := hb
        by_cases hs : chNl ∈ s
        · obtain ⟨l, rest, h1, h2⟩ := nl_split _ hs
          have htw : s.takeWhile (· ≠ chNl) = l := by rw [h1]; exact takeWhile_nl h2
          have hd : s.drop (l.length + 1) = rest := by
            rw [h1, show l ++ chNl :: rest = (l ++ [chNl]) ++ rest by simp,
              show l.length + 1 = (l ++ [chNl]).length by simp, List.drop_left]
          simp only [htw, hd]
          rw [if_pos (by rw [h1]; simp)]
          have hst : r ++ c.stream = (r ++ l) ++ chNl :: (rest ++ net.flatten) := by
            simp [Conn.stream, hb, hn, h1]
          have hnl : chNl ∉ r ++ l := by simp [hr, h2]
          rw [hst, readLine_nl hnl]
          have hline : (if l.getLast? = some chCr then r ++ l.dropLast ++ [chNl]
            else if l = [] ∧ r.getLast? = some chCr then r.dropLast ++ [chNl]
            else r ++ l ++ [chNl]) = stripCr (r ++ l) ++ [chNl] := by
            by_cases hl : l = []
            · subst hl
              simp only [List.getLast?_nil, reduceCtorEq, if_false, true_and, List.append_nil,
                stripCr]
              split <;> rfl
            · rw [stripCr_append hl]
              simp only [stripCr, hl, false_and, if_false]
              split <;> simp
          rw [hline]
          dsimp only
          by_cases he : rest = []
          · simp only [he, ne_eq, not_true_eq_false, if_false, List.nil_append]
            refine ⟨?_, hok'⟩
            simp [Conn.stream, hrest']
          · simp only [ne_eq, he, not_false_eq_true, if_true]
            refine ⟨?_, Conn.ok_addBuf hok' _⟩
            simp only [Conn.stream, Conn.rest_addBuf, hrest', List.nil_append]
            rfl
        · have htw : s.takeWhile (· ≠ chNl) = s := takeWhile_nl_all hs
          simp only [htw, Nat.lt_irrefl, if_false]
          have := ih (r ++ s) { c with net := net } hok' (by simp [hr, hs]) (.inr hrest')
            (by
              rw [hn] at hf
              simp only [hb, if_true, hrest', List.length_cons] at hf ⊢
              omega)
          have hst : r ++ s ++ ({ c with net := net } : Conn).stream = r ++ c.stream := by
            simp [Conn.stream, hb, hn, hrest']
          rw [hst] at this
          exact this
    · -- from the buffer
      have hr0 : r = [] := by rcases hrest with h | h
                              · exact h
                              · exact absurd h hb
      subst hr0
      simp only [Conn.readForLine, ne_eq, hb, not_false_eq_true, if_true, List.nil_append]
      rcases Conn.lineFromBuf_spec hok hb with ⟨l, rest, h1, h2, h3, h4, h5, h6, h7⟩ | ⟨h1, h2⟩
      · have hst : c.stream = l ++ chNl :: (rest ++ c.net.flatten) := by
          simp [Conn.stream, h1]
        have hst' : c.lineFromBuf.2.stream = rest ++ c.net.flatten := by
          simp [Conn.stream, h4, h5]
        rw [hst, readLine_nl h2, h3]
        rw [if_pos (by simp)]
        simp only [List.dropLast_concat]
        by_cases hcr : l.getLast? = some chCr
        · have : 1 < (l ++ [chNl]).length := by
            have : l ≠ [] := by rintro rfl; simp at hcr
            have := List.length_pos_iff.2 this
            simp; omega
          rw [if_pos ⟨this, hcr⟩]
          simp only [stripCr, hcr, if_true, hst']
          exact ⟨trivial, h6⟩
        · rw [if_neg (fun h => hcr h.2)]
          simp only [stripCr, hcr, if_false, hst']
          exact ⟨trivial, h6⟩
      · simp only [h2]
        have hlast : c.rest.getLast? ≠ some chNl := by
          intro h
          exact h1 (List.mem_of_getLast? h)
        rw [if_neg (by simp [hlast])]
        simp only [takeWhile_nl_all h1, Nat.lt_irrefl, if_false]
        have := ih c.rest { c with buf := none } (Conn.ok_clear hok) h1 (.inr rfl)
          (by
            simp only [hb, if_false] at hf
            simp only [Conn.rest, if_true]
            omega)
        have hst : c.rest ++ ({ c with buf := none } : Conn).stream = c.stream := by
          simp [Conn.stream, Conn.rest]
        rw [hst] at this
        exact this

theorem Conn.readline_spec (c : Conn) (hok : c.Ok) :
    match c.readline with
    | none => readLine c.stream = none
    | some (l, c') => readLine c.stream = some (l, c'.stream) ∧ c'.Ok := by
  have := readlineLoop_spec (c.net.length + 2) [] c hok (by simp) (.inl rfl) (by split <;> omega)
  simpa [Conn.readline] using this

/-! ### Blocks of a given size -/

theorem gather_spec (n : Nat) (hn : 0 < n) (net : List Bytes) (h : ∀ s ∈ net, s ≠ []) :
    match gather n net with
    | none => net.flatten.length < n
    | some (d, net') => d ++ net'.flatten = net.flatten ∧ d.length = n ∧
        (∀ s ∈ net', s ≠ []) ∧ net'.length ≤ net.length := by
  induction net generalizing n with
  | nil => simp [gather, hn]
  | cons s net ih =>
    simp only [gather]
    by_cases h1 : n < s.length
    · rw [if_pos h1]
      refine ⟨by simp [← List.append_assoc], by simp; omega, ?_, by simp⟩
      intro x hx
      rcases List.mem_cons.1 hx with rfl | hx
      · intro h0
        have := congrArg List.length h0
        simp at this; omega
      · exact h x (by simp [hx])
    · rw [if_neg h1]
      by_cases h2 : s.length = n
      · rw [if_pos h2]
        exact ⟨by simp, h2, fun x hx => h x (by simp [hx]), by simp⟩
      · rw [if_neg h2]
        have := ih (n - s.length) (by omega) (fun x hx => h x (by simp [hx]))
        cases hg : gather (n - s.length) net with
        | none =>
          rw [hg] at this
          simp only [List.flatten_cons, List.length_append] at this ⊢
          omega
        | some x =>
          obtain ⟨d, net'⟩ := x
          rw [hg] at this
          obtain ⟨a, b, c, e⟩ := this
          refine ⟨by simp [a], by simp [b]; omega, c, by simp; omega⟩

theorem Conn.fromNet_spec (c : Conn) (hok : c.Ok) (hr : c.rest = []) (n : Nat) (hn : 0 < n) :
    match c.fromNet n with
    | none => c.stream.length < n
    | some (t, c') => t ++ c'.stream = c.stream ∧ c'.Ok ∧ t ≠ [] ∧
        (c'.rest = [] ∨ t.length = n) ∧ c'.net.length ≤ c.net.length ∧
        (c'.net.length < c.net.length ∨ t.length = n) := by
  have hst : c.stream = c.net.flatten := by simp [Conn.stream, hr]
  simp only [Conn.fromNet]
  by_cases h1 : 1024 < n
  · rw [if_pos h1]
    have := gather_spec n hn c.net hok.1
    cases hg : gather n c.net with
    | none => rw [hg] at this; rw [hst]; exact this
    | some x =>
      obtain ⟨d, net'⟩ := x
      rw [hg] at this
      obtain ⟨a, b, e, f⟩ := this
      have hr' : ({ c with net := net' } : Conn).rest = [] := hr
      refine ⟨by simp [Conn.stream, hr', hr, a], ⟨e, hok.2⟩, ?_, .inl hr', f, .inr b⟩
      rintro rfl; simp at b; omega
  · rw [if_neg h1]
    cases hc : c.net with
    | nil => simp [hst, hc, hn]
    | cons s net =>
      have hs : s ≠ [] := hok.1 s (by rw [hc]; simp)
      have hnet : ∀ x ∈ net, x ≠ [] := fun x hx => hok.1 x (by rw [hc]; simp [hx])
      by_cases h2 : 0 < n ∧ n < s.length ∧ s.length < 1024 ∧ c.buf = none
      · simp only [if_pos h2]
        refine ⟨by simp [Conn.stream, Conn.rest, h2.2.2.2, hc, ← List.append_assoc], ⟨hnet, ?_⟩, ?_,
          .inr (by simp; omega), by simp, .inl (by simp)⟩
        · intro w pos hb
          simp only [Option.some.injEq, Prod.mk.injEq] at hb
          obtain ⟨rfl, rfl⟩ := hb
          omega
        · intro h0
          have := congrArg List.length h0
          rw [List.length_take, List.length_nil] at this; omega
      · simp only [if_neg h2]
        have hr' : ({ c with net := net } : Conn).rest = [] := hr
        exact ⟨by simp [Conn.stream, hr', hr, hc], ⟨hnet, hok.2⟩, hs, .inl hr', by simp, .inl (by simp)⟩

theorem Conn.sizeFromBuf_spec (c : Conn) (hok : c.Ok) (hr : c.rest ≠ []) (n : Nat) (hn : 0 < n) :
    (c.sizeFromBuf n).1 ++ (c.sizeFromBuf n).2.stream = c.stream ∧ (c.sizeFromBuf n).2.Ok ∧
      (c.sizeFromBuf n).1 ≠ [] ∧ (c.sizeFromBuf n).2.net = c.net ∧
      ((c.sizeFromBuf n).2.rest = [] ∨ (c.sizeFromBuf n).1.length = n) ∧
      (c.sizeFromBuf n).1.length ≤ n := by
  have hlen := List.length_pos_iff.2 hr
  simp only [Conn.sizeFromBuf]
  by_cases h : 0 < n ∧ n < c.rest.length
  · obtain ⟨w, pos, hb⟩ : ∃ w pos, c.buf = some (w, pos) := by
      cases hb : c.buf with
      | none => simp [Conn.rest, hb] at hr
      | some x => exact ⟨x.1, x.2, rfl⟩
    have hrest : c.rest = w.drop pos := by simp [Conn.rest, hb]
    simp only [if_pos h, hb]
    have hr' : ({ c with buf := some (w, pos + n) } : Conn).rest = c.rest.drop n := by
      simp [Conn.rest, hb]
    refine ⟨?_, ⟨hok.1, ?_⟩, ?_, trivial, .inr ?_, ?_⟩
    · simp only [Conn.stream, hr', ← List.append_assoc, List.take_append_drop]
    · intro w' pos' hb'
      simp only [Option.some.injEq, Prod.mk.injEq] at hb'
      obtain ⟨rfl, rfl⟩ := hb'
      have := h.2
      rw [hrest, List.length_drop] at this
      omega
    · intro h0
      have := congrArg List.length h0
      rw [List.length_take, List.length_nil] at this; omega
    · rw [List.length_take]; omega
    · rw [List.length_take]; omega
  · simp only [if_neg h]
    refine ⟨by simp [Conn.stream, Conn.rest], Conn.ok_clear hok, hr, trivial, .inl rfl, ?_⟩
    omega

/-- The loop of `readsize` reads the next bytes of the stream. -/
theorem readsizeLoop_spec (fuel n : Nat) (data : Bytes) (c : Conn) (hok : c.Ok)
    (hd : data.length ≤ n)
    (hf : data.length = n ∧ 0 < fuel ∨
      c.net.length + (if c.rest = [] then 0 else 1) + 1 < fuel) :
    match readsizeLoop fuel n data c with
    | none => (data ++ c.stream).length < n
    | some (x, c') => x ++ c'.stream = data ++ c.stream ∧ x.length = n ∧ c'.Ok := by
  induction fuel generalizing data c with
  | zero => omega
  | succ fuel ih =>
    simp only [readsizeLoop]
    by_cases hlt : data.length < n
    · rw [if_pos hlt]
      have hf : c.net.length + (if c.rest = [] then 0 else 1) < fuel := by omega
      -- one read
      have key : match c.readForSize (n - data.length) with
          | none => c.stream.length < n - data.length
          | some (t, c') => t ++ c'.stream = c.stream ∧ c'.Ok ∧
              (c'.rest = [] ∨ t.length ≤ n - data.length) ∧
              (n - data.length ≤ t.length ∨
                c'.net.length + (if c'.rest = [] then 0 else 1) <
                  c.net.length + (if c.rest = [] then 0 else 1)) := by
        simp only [Conn.readForSize]
        by_cases hr : c.rest = []
        · simp only [hr, ne_eq, not_true_eq_false, if_false]
          have := Conn.fromNet_spec c hok hr (n - data.length) (by omega)
          cases hx : c.fromNet (n - data.length) with
          | none => rw [hx] at this; exact this
          | some x =>
            obtain ⟨t, c'⟩ := x
            rw [hx] at this
            obtain ⟨a1, a2, a3, a4, a5, a6⟩ := this
            refine ⟨a1, a2, a4.imp id Nat.le_of_eq, ?_⟩
            rcases a6 with h | h
            · rcases a4 with h' | h'
              · right; rw [if_pos h']; simp; omega
              · left; omega
            · left; omega
        · simp only [ne_eq, hr, not_false_eq_true, if_true]
          obtain ⟨a1, a2, a3, a4, a5, a6⟩ :=
            Conn.sizeFromBuf_spec c hok hr (n - data.length) (by omega)
          refine ⟨a1, a2, .inr a6, ?_⟩
          rcases a5 with h | h
          · right; rw [if_pos h, a4]; simp [hr]
          · left; omega
      cases hx : c.readForSize (n - data.length) with
      | none =>
        rw [hx] at key
        simp only [List.length_append]
        omega
      | some x =>
        obtain ⟨t, c'⟩ := x
        rw [hx] at key
        obtain ⟨a1, a2, a3, a4⟩ := key
        dsimp only
        by_cases h1 : data.length = 0 ∧ t.length = n
        · rw [if_pos h1]
          have : data = [] := List.length_eq_zero_iff.1 h1.1
          subst this
          exact ⟨by simpa using a1, h1.2, a2⟩
        · rw [if_neg h1]
          by_cases h2 : n ≤ data.length + t.length
          · rw [if_pos h2]
            have hlen : (data ++ t.take (n - data.length)).length = n := by
              simp; omega
            have hst : data ++ t.take (n - data.length) ++
                (if 0 < t.length - (n - data.length) then c'.addBuf (t.drop (n - data.length))
                  else c').stream = data ++ c.stream := by
              rw [← a1]
              by_cases h3 : 0 < t.length - (n - data.length)
              · rw [if_pos h3]
                have hr' : c'.rest = [] := by
                  rcases a3 with h | h
                  · exact h
                  · omega
                have hs' : (c'.addBuf (t.drop (n - data.length))).stream =
                    t.drop (n - data.length) ++ c'.stream := by
                  simp only [Conn.stream, Conn.rest_addBuf, hr', List.nil_append]
                  rfl
                rw [hs', List.append_assoc, ← List.append_assoc (t.take _),
                  List.take_append_drop]
              · rw [if_neg h3, List.append_assoc,
                  List.take_of_length_le (l := t) (by omega)]
            have := ih (data ++ t.take (n - data.length))
              (if 0 < t.length - (n - data.length) then c'.addBuf (t.drop (n - data.length))
                else c') (by split; exact Conn.ok_addBuf a2 _; exact a2) (by omega)
              (.inl ⟨hlen, by omega⟩)
            rw [hst] at this
            have hl2 : ¬ (data ++ c.stream).length < n := by
              rw [← a1]; simp only [List.length_append]; omega
            cases hz : readsizeLoop fuel n (data ++ t.take (n - data.length))
              (if 0 < t.length - (n - data.length) then c'.addBuf (t.drop (n - data.length))
                else c') with
            | none => rw [hz] at this; exact absurd this hl2
            | some z => rw [hz] at this; exact this
          · rw [if_neg h2]
            have := ih (data ++ t) c' a2 (by simp; omega)
              (.inr (by
                rcases a4 with h | h
                · omega
                · omega))
            rw [List.append_assoc, a1] at this
            exact this
    · rw [if_neg hlt]
      exact ⟨rfl, by omega, hok⟩

theorem Conn.readsize_spec (c : Conn) (hok : c.Ok) (n : Nat) :
    match c.readsize n with
    | none => c.stream.length < n
    | some (x, c') => x = c.stream.take n ∧ c'.stream = c.stream.drop n ∧ n ≤ c.stream.length ∧
        c'.Ok := by
  have := readsizeLoop_spec (c.net.length + 3) n [] c hok (by simp) (.inr (by split <;> omega))
  simp only [Conn.readsize, List.nil_append] at this ⊢
  cases hx : readsizeLoop (c.net.length + 3) n [] c with
  | none => rw [hx] at this; exact this
  | some x =>
    obtain ⟨x, c'⟩ := x
    rw [hx] at this
    obtain ⟨a, b, d⟩ := this
    refine ⟨?_, ?_, ?_, d⟩
    · rw [← a, ← b, List.take_left]
    · rw [← a, ← b, List.drop_left]
    · rw [← a, List.length_append]; omega

end Flare
