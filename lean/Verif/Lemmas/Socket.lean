import Verif.Lemmas.Connection
import Verif.Spec.Socket

/-! Lemmas about reads at the level of system calls (C100). -/
namespace Flare

/-- The counter and what is left of the stream add up. -/
theorem recvLoop_counted (e : Nat) (nb : Bool) (ts : List Turn) (bs : Option Nat)
    (acc st : Bytes) (cnt : Nat) :
    (recvLoop e nb ts bs acc st cnt).counted + (recvLoop e nb ts bs acc st cnt).stream.length =
      cnt + st.length := by
  induction ts generalizing bs acc st cnt with
  | nil => rfl
  | cons t ts ih =>
    simp only [recvLoop]
    split
    · rfl
    · rfl
    · split
      · rfl
      · rename_i n _
        split
        · rfl
        · split
          · exact ih ..
          · rfl
        · rfl
        · rfl
        · rename_i k _
          obtain ⟨m, hm⟩ : ∃ m, m = min (k + 1) (n - acc.length) := ⟨_, rfl⟩
          rw [← hm]
          have hl : (st.take m).length + (st.drop m).length = st.length := by
            rw [← List.length_append, List.take_append_drop]
          split
          · rename_i h0
            rw [h0] at hl
            simpa using hl
          · split
            · split <;> (dsimp only; omega)
            · rw [ih]; omega

/-- What the loop does with the stream where no `read` is interrupted. -/
theorem recvLoop_spec (e : Nat) (nb : Bool) (ts : List Turn) (hi : NoIntr ts) (bs : Option Nat)
    (acc st : Bytes) (cnt : Nat) :
    (∃ g, acc ++ st = g ++ (recvLoop e nb ts bs acc st cnt).stream) ∧
    (∀ t ∈ (recvLoop e nb ts bs acc st cnt).kernel, t ∈ ts) ∧
    (recvLoop e nb ts bs acc st cnt).kernel.length ≤ ts.length ∧
    ((recvLoop e nb ts bs acc st cnt).stop ≠ .waiting →
      (recvLoop e nb ts bs acc st cnt).kernel.length < ts.length) ∧
    (recvLoop e nb ts bs acc st cnt).stop ≠ .zero ∧
    (∀ d, (recvLoop e nb ts bs acc st cnt).stop = .data d →
      acc ++ st = d ++ (recvLoop e nb ts bs acc st cnt).stream) ∧
    (∀ d, (recvLoop e nb ts bs acc st cnt).stop = .early d →
      acc ++ st = d ++ (recvLoop e nb ts bs acc st cnt).stream ∧ 0 < e ∧ e < d.length ∧
        nb = true) := by
  induction ts generalizing bs acc st cnt with
  | nil =>
    simp only [recvLoop]
    exact ⟨⟨acc, rfl⟩, by simp, Nat.le_refl _, by simp, by simp, by simp, by simp⟩
  | cons t ts ih =>
    have hi' : NoIntr ts := fun x hx => hi x (List.mem_cons_of_mem _ hx)
    have hmem : ∀ x ∈ ts, x ∈ t :: ts := fun x hx => List.mem_cons_of_mem _ hx
    simp only [recvLoop]
    split
    · exact ⟨⟨acc, rfl⟩, hmem, by simp, by simp, by simp, by simp, by simp⟩
    · exact ⟨⟨acc, rfl⟩, hmem, by simp, by simp, by simp, by simp, by simp⟩
    · split
      · exact ⟨⟨acc, rfl⟩, hmem, by simp, by simp, by simp, by simp, by simp⟩
      · rename_i n _
        have step : ∀ (acc' st' : Bytes) (cnt' : Nat), acc' ++ st' = acc ++ st → 
            (∃ g, acc ++ st = g ++ (recvLoop e nb ts (some n) acc' st' cnt').stream) ∧
            (∀ x ∈ (recvLoop e nb ts (some n) acc' st' cnt').kernel, x ∈ t :: ts) ∧
            (recvLoop e nb ts (some n) acc' st' cnt').kernel.length ≤ (t :: ts).length ∧
            ((recvLoop e nb ts (some n) acc' st' cnt').stop ≠ .waiting →
              (recvLoop e nb ts (some n) acc' st' cnt').kernel.length < (t :: ts).length) ∧
            (recvLoop e nb ts (some n) acc' st' cnt').stop ≠ .zero ∧
            (∀ d, (recvLoop e nb ts (some n) acc' st' cnt').stop = .data d →
              acc ++ st = d ++ (recvLoop e nb ts (some n) acc' st' cnt').stream) ∧
            (∀ d, (recvLoop e nb ts (some n) acc' st' cnt').stop = .early d →
              acc ++ st = d ++ (recvLoop e nb ts (some n) acc' st' cnt').stream ∧ 0 < e ∧
                e < d.length ∧ nb = true) := by
          intro acc' st' cnt' he
          obtain ⟨h1, h2, h3, h4, h5, h6, h7⟩ := ih hi' (some n) acc' st' cnt'
          rw [he] at h1 h6 h7
          refine ⟨h1, fun x hx => hmem x (h2 x hx), ?_, ?_, h5, h6, h7⟩
          · simp only [List.length_cons]; omega
          · intro _; simp only [List.length_cons]; omega
        split
        · exact ⟨⟨acc, rfl⟩, hmem, by simp, by simp, by simp, by simp, by simp⟩
        · split
          · exact step _ _ _ rfl
          · exact ⟨⟨acc, rfl⟩, hmem, by simp, by simp, by simp, by simp, by simp⟩
        · rename_i hc
          exact absurd hc (hi t (by simp))
        · exact ⟨⟨acc, rfl⟩, hmem, by simp, by simp, by simp, by simp, by simp⟩
        · rename_i k _
          obtain ⟨m, hm⟩ : ∃ m, m = min (k + 1) (n - acc.length) := ⟨_, rfl⟩
          rw [← hm]
          have hl : (acc ++ st.take m) ++ st.drop m = acc ++ st := by
            rw [List.append_assoc, List.take_append_drop]
          split
          · rename_i h0
            rw [h0, List.append_nil] at hl
            exact ⟨⟨acc, hl.symm⟩, hmem, by simp, by simp, by simp, by simp, by simp⟩
          · split
            · split
              · rename_i hE
                refine ⟨⟨_, hl.symm⟩, hmem, by simp, by simp, by simp, by simp, ?_⟩
                intro d hd
                simp only [RecvEnd.early.injEq] at hd
                subst hd
                exact ⟨hl.symm, hE.1, hE.2.1, hE.2.2.2⟩
              · refine ⟨⟨_, hl.symm⟩, hmem, by simp, by simp, by simp, ?_, by simp⟩
                intro d hd
                simp only [RecvEnd.data.injEq] at hd
                subst hd
                exact hl.symm
            · exact step _ _ _ hl

theorem Sock.rest_nil {s : Sock} (h : s.buf = none) : s.conn.rest = [] := by
  simp [Sock.conn, Conn.rest, h]

/-- What one read from the socket does. -/
theorem Sock.fromNet_spec (s : Sock) (hok : s.Ok) (hi : NoIntr s.kernel) (hr : s.conn.rest = [])
    (e : Nat) :
    (s.fromNet e).2.Ok ∧ NoIntr (s.fromNet e).2.kernel ∧
    (∃ g, s.view = g ++ (s.fromNet e).2.view) ∧
    (s.fromNet e).2.kernel.length ≤ s.kernel.length ∧
    (∀ d, (s.fromNet e).1 = .ok d → s.view = d ++ (s.fromNet e).2.view ∧
      (s.fromNet e).2.up = s.up ∧
      (s.fromNet e).2.kernel.length < s.kernel.length ∧
      ((s.fromNet e).2.conn.rest = [] ∨ 0 < e ∧ d.length = e)) := by
  obtain ⟨h1, h2, h3, h4, h5, h6, h7⟩ :=
    recvLoop_spec e s.buf.isNone s.kernel hi none [] s.stream s.counted
  obtain ⟨o, ho⟩ : ∃ o, o = recvLoop e s.buf.isNone s.kernel none [] s.stream s.counted :=
    ⟨_, rfl⟩
  rw [← ho] at h1 h2 h3 h4 h5 h6 h7
  have hv : s.view = s.stream := by simp [Sock.view, hr]
  rw [List.nil_append] at h1 h6 h7
  simp only [Sock.fromNet, ← ho]
  rw [hv]
  have hik : NoIntr o.kernel := fun t ht => hi t (h2 t ht)
  have hview : ∀ (b : Option (Bytes × Nat)) (u : Bool), ({ s with buf := b, up := u, stream := o.stream, counted := o.counted, kernel := o.kernel } : Sock).view = ({ buf := b } : Conn).rest ++ o.stream := fun _ _ => rfl
  have hrest : ({ buf := s.buf } : Conn).rest = [] := hr
  have hrest0 : ({ buf := none } : Conn).rest = [] := rfl
  cases hs : o.stop with
  | data d =>
    dsimp only
    have hd := h6 d hs
    have hlt := h4 (by rw [hs]; simp)
    refine ⟨hok, hik, ?_, h3, ?_⟩
    · rw [hview, hrest]; exact ⟨d, hd⟩
    · intro d' he
      simp only [SockRes.ok.injEq] at he
      subst he
      rw [hview, hrest]
      exact ⟨hd, by simp, hlt, .inl hrest⟩
  | early d =>
    dsimp only
    obtain ⟨hd, he0, he1, hnb⟩ := h7 d hs
    have hlt := h4 (by rw [hs]; simp)
    have hb : ({ buf := some (d, e) } : Conn).rest = d.drop e := rfl
    have hsplit : s.stream = d.take e ++ (d.drop e ++ o.stream) := by
      rw [← List.append_assoc, List.take_append_drop, hd]
    refine ⟨?_, hik, ?_, h3, ?_⟩
    · intro w pos h
      simp only [Option.some.injEq, Prod.mk.injEq] at h
      obtain ⟨rfl, rfl⟩ := h
      exact Nat.le_of_lt he1
    · rw [hview, hb]; exact ⟨_, hsplit⟩
    · intro d' he
      simp only [SockRes.ok.injEq] at he
      subst he
      rw [hview, hb]
      exact ⟨hsplit, by simp, hlt, .inr ⟨he0, by rw [List.length_take]; omega⟩⟩
  | zero => exact absurd hs h5
  | err c =>
    cases c
    · dsimp only
      refine ⟨hok, hik, ?_, h3, by simp⟩
      rw [hview, hrest]; exact h1
    · dsimp only
      refine ⟨by intro w pos h; simp at h, hik, ?_, h3, by simp⟩
      rw [hview, hrest0]; exact h1
  | eof =>
    dsimp only
    refine ⟨by intro w pos h; simp at h, hik, ?_, h3, by simp⟩
    rw [hview, hrest0]; exact h1
  | waiting =>
    dsimp only
    refine ⟨hok, hik, ?_, h3, by simp⟩
    rw [hview, hrest]; exact h1

/-- Where nothing fails and the kernel goes on answering, the loop comes to an end with bytes, or
the stream has too few of them. -/
theorem recvLoop_live (e : Nat) (nb : Bool) (ts : List Turn) (hg : ∀ t ∈ ts, t.Good)
    (bs : Option Nat) (acc st : Bytes) (cnt : Nat) (hlen : st.length < ts.length)
    (hbs : bs = none ∧ acc = [] ∨ ∃ n, bs = some n ∧ acc.length < n ∧
      (n ≤ acc.length + st.length ∨ 1024 < e ∧ n = e)) :
    (∀ t ∈ (recvLoop e nb ts bs acc st cnt).kernel, t.Good) ∧
    ((∃ d, d ≠ [] ∧ ((recvLoop e nb ts bs acc st cnt).stop = .data d ∨
        (recvLoop e nb ts bs acc st cnt).stop = .early d) ∧
        (recvLoop e nb ts bs acc st cnt).stream.length <
          (recvLoop e nb ts bs acc st cnt).kernel.length) ∨
      (recvLoop e nb ts bs acc st cnt).stop = .eof ∧ (acc ++ st).length < max e 1) := by
  induction ts generalizing bs acc st cnt with
  | nil => simp at hlen
  | cons t ts ih =>
    have hg' : ∀ x ∈ ts, x.Good := fun x hx => hg x (List.mem_cons_of_mem _ hx)
    obtain ⟨g1, ⟨a, g2⟩, k, g3⟩ := hg t (by simp)
    -- the size of the buffer
    obtain ⟨n, hn, hacc⟩ : ∃ n, bs.or (if 1024 < e then some e
        else t.avail.map (fun a => min a st.length)) = some n ∧
        (acc.length < n ∧ (n ≤ acc.length + st.length ∨ 1024 < e ∧ n = e) ∨
          acc = [] ∧ st = [] ∧ n = 0) := by
      rcases hbs with ⟨rfl, rfl⟩ | ⟨n, rfl, h1, h2⟩
      · by_cases he : 1024 < e
        · exact ⟨e, by simp [he], .inl ⟨by simp; omega, .inr ⟨he, rfl⟩⟩⟩
        · refine ⟨min (a + 1) st.length, by simp [he, g2], ?_⟩
          cases st with
          | nil => right; simp
          | cons c st => left; simp only [List.length_cons, List.length_nil]; omega
      · exact ⟨n, by simp, .inl ⟨h1, h2⟩⟩
    simp only [recvLoop, g1, hn, g3]
    simp only [List.length_cons] at hlen
    obtain ⟨m, hm⟩ : ∃ m, m = min (k + 1) (n - acc.length) := ⟨_, rfl⟩
    rw [← hm]
    by_cases h0 : st.take m = []
    · rw [if_pos h0]
      refine ⟨hg', .inr ⟨rfl, ?_⟩⟩
      have hl := congrArg List.length h0
      rw [List.length_take, List.length_nil] at hl
      simp only [List.length_append]
      rcases hacc with ⟨h1, h2⟩ | ⟨rfl, rfl, _⟩
      · have : st.length = 0 := by omega
        omega
      · simp; omega
    · rw [if_neg h0]
      have hl : 0 < (st.take m).length := List.length_pos_iff.2 h0
      have hs : (st.take m).length + (st.drop m).length = st.length := by
        rw [← List.length_append, List.take_append_drop]
      have hne : acc ++ st.take m ≠ [] := by
        intro h
        exact h0 (List.append_eq_nil_iff.1 h).2
      by_cases hfull : n ≤ (acc ++ st.take m).length
      · rw [if_pos hfull]
        split
        · exact ⟨hg', .inl ⟨_, hne, .inr rfl, by dsimp only; omega⟩⟩
        · exact ⟨hg', .inl ⟨_, hne, .inl rfl, by dsimp only; omega⟩⟩
      · rw [if_neg hfull]
        have hst : (acc ++ st.take m ++ st.drop m) = acc ++ st := by
          rw [List.append_assoc, List.take_append_drop]
        have := ih hg' (some n) (acc ++ st.take m) (st.drop m) (cnt + (st.take m).length)
          (by omega)
          (.inr ⟨n, rfl, by omega, by
            rcases hacc with ⟨h1, h2⟩ | ⟨rfl, rfl, _⟩
            · simp only [List.length_append]; omega
            · simp at h0⟩)
        rw [hst] at this
        exact this

/-- A connection all of whose system calls succeed, for as long as there are bytes. -/
def Sock.Live (s : Sock) : Prop :=
  s.up = true ∧ (∀ t ∈ s.kernel, t.Good) ∧ s.stream.length < s.kernel.length

theorem Sock.fromNet_live (s : Sock) (h : s.Live) (hr : s.conn.rest = []) (e : Nat) :
    (∃ d, d ≠ [] ∧ (s.fromNet e).1 = .ok d ∧ (s.fromNet e).2.Live ∧
      (0 < e → e < d.length → (s.fromNet e).2.conn.rest = [])) ∨
    s.view.length < max e 1 := by
  have := recvLoop_live e s.buf.isNone s.kernel h.2.1 none [] s.stream s.counted h.2.2
    (.inl ⟨rfl, rfl⟩)
  obtain ⟨o, ho⟩ : ∃ o, o = recvLoop e s.buf.isNone s.kernel none [] s.stream s.counted :=
    ⟨_, rfl⟩
  rw [← ho] at this
  obtain ⟨h1, ⟨d, h2, h3 | h3, h4⟩ | ⟨_, h3⟩⟩ := this
  · left
    refine ⟨d, h2, ?_⟩
    simp only [Sock.fromNet, ← ho, h3]
    exact ⟨trivial, ⟨h.1, h1, h4⟩, fun _ _ => hr⟩
  · left
    by_cases he : e = 0
    · -- not reached: nothing is kept where no number is given
      exfalso
      have hi : NoIntr s.kernel := fun t ht => by
        obtain ⟨_, _, k, hk⟩ := h.2.1 t ht
        rw [hk]; simp
      have := ((recvLoop_spec e s.buf.isNone s.kernel hi none [] s.stream s.counted).2.2.2.2.2.2 d
        (by rw [← ho]; exact h3)).2.1
      omega
    · refine ⟨d.take e, ?_, ?_⟩
      · intro h0
        have hl := congrArg List.length h0
        have := List.length_pos_iff.2 h2
        rw [List.length_take, List.length_nil] at hl
        omega
      · simp only [Sock.fromNet, ← ho, h3]
        refine ⟨trivial, ⟨h.1, h1, h4⟩, ?_⟩
        intro _ hlt
        rw [List.length_take] at hlt
        omega
  · right
    simpa [Sock.view, hr] using h3

theorem Sock.conn_ok {s : Sock} (h : s.Ok) : s.conn.Ok := ⟨by simp [Sock.conn], h⟩

theorem Sock.readForLine_net {s : Sock} (hup : s.up = true) (hb : s.conn.rest = []) :
    s.readForLine = ((s.fromNet 0).1, true, (s.fromNet 0).2) := by
  unfold Sock.readForLine
  rw [if_neg (by rw [hup]; simp), if_neg (by simp [hb])]

theorem Sock.readForLine_buf {s : Sock} (hup : s.up = true) (hb : s.conn.rest ≠ []) :
    s.readForLine =
      (.ok s.conn.lineFromBuf.1, false, { s with buf := s.conn.lineFromBuf.2.buf }) := by
  unfold Sock.readForLine
  rw [if_neg (by rw [hup]; simp), if_pos hb]

theorem Sock.readForSize_net {s : Sock} (hup : s.up = true) (hb : s.conn.rest = []) (e : Nat) :
    s.readForSize e = s.fromNet e := by
  unfold Sock.readForSize
  rw [if_neg (by rw [hup]; simp), if_neg (by simp [hb])]

theorem Sock.readForSize_buf {s : Sock} (hup : s.up = true) (hb : s.conn.rest ≠ []) (e : Nat) :
    s.readForSize e =
      (.ok (s.conn.sizeFromBuf e).1, { s with buf := (s.conn.sizeFromBuf e).2.buf }) := by
  unfold Sock.readForSize
  rw [if_neg (by rw [hup]; simp), if_pos hb]

/-- The loop of `readline` reads a line of the stream. -/
theorem sockLineLoop_spec (fuel : Nat) (r : Bytes) (s : Sock) (hok : s.Ok)
    (hi : NoIntr s.kernel) (hr : chNl ∉ r) (hrest : r = [] ∨ s.conn.rest = []) :
    (sockLineLoop fuel r s).2.Ok ∧ NoIntr (sockLineLoop fuel r s).2.kernel ∧
    (∃ g, r ++ s.view = g ++ (sockLineLoop fuel r s).2.view) ∧
    (∀ l, (sockLineLoop fuel r s).1 = .ok l →
      readLine (r ++ s.view) = some (l, (sockLineLoop fuel r s).2.view)) ∧
    (s.Live → s.kernel.length + (if s.conn.rest = [] then 0 else 1) < fuel →
      readLine (r ++ s.view) = none ∨
      ∃ l, (sockLineLoop fuel r s).1 = .ok l ∧ (sockLineLoop fuel r s).2.Live) := by
  induction fuel generalizing r s with
  | zero =>
    simp only [sockLineLoop]
    exact ⟨hok, hi, ⟨r, rfl⟩, by simp, by omega⟩
  | succ fuel ih =>
    simp only [sockLineLoop]
    by_cases hup : s.up = false
    · simp only [Sock.readForLine, hup, if_true]
      refine ⟨hok, hi, ⟨r, rfl⟩, by simp, ?_⟩
      intro h; rw [h.1] at hup; cases hup
    have hup' : s.up = true := by simpa using hup
    by_cases hb : s.conn.rest = []
    · rw [Sock.readForLine_net hup' hb]
      obtain ⟨n1, n2, n3, n4, n5⟩ := Sock.fromNet_spec s hok hi hb 0
      have nl := fun h => Sock.fromNet_live s h hb 0
      have hnone : s.view.length < max 0 1 → readLine (r ++ s.view) = none := by
        intro h
        have : s.view = [] := List.length_eq_zero_iff.1 (by omega)
        rw [this, List.append_nil]
        exact readLine_none hr
      obtain ⟨x, s', hx⟩ : ∃ x s', s.fromNet 0 = (x, s') := ⟨_, _, rfl⟩
      rw [hx] at n1 n2 n3 n4 n5 nl
      rw [hx]
      dsimp only at n1 n2 n3 n4 n5 nl ⊢
      obtain ⟨g, hg⟩ := n3
      cases x with
      | waiting =>
        refine ⟨n1, n2, ⟨r ++ g, by rw [hg, List.append_assoc]⟩, by simp, ?_⟩
        intro hl _
        rcases nl hl with ⟨d, _, h, _⟩ | h
        · cases h
        · exact .inl (hnone h)
      | ret n =>
        refine ⟨n1, n2, ⟨r ++ g, by rw [hg, List.append_assoc]⟩, by simp, ?_⟩
        intro hl _
        rcases nl hl with ⟨d, _, h, _⟩ | h
        · cases h
        · exact .inl (hnone h)
      | ok t =>
        obtain ⟨m1, m2, m3, m4⟩ := n5 t rfl
        have m4 : s'.conn.rest = [] := by
          rcases m4 with h | h
          · exact h
          · omega
        have hsv : s'.view = s'.stream := by simp [Sock.view, m4]
        simp only [Bool.true_eq_false, false_and, if_false]
        by_cases hs : chNl ∈ t
        · obtain ⟨l, rest, h1, h2⟩ := nl_split _ hs
          have htw : t.takeWhile (· ≠ chNl) = l := by rw [h1]; exact takeWhile_nl h2
          have hd : t.drop (l.length + 1) = rest := by
            rw [h1, show l ++ chNl :: rest = (l ++ [chNl]) ++ rest by simp,
              show l.length + 1 = (l ++ [chNl]).length by simp, List.drop_left]
          simp only [htw, hd]
          rw [if_pos (by rw [h1]; simp)]
          have hst : r ++ s.view = (r ++ l) ++ chNl :: (rest ++ s'.view) := by
            rw [m1, h1]; simp
          have hnl : chNl ∉ r ++ l := by simp [hr, h2]
          have hline : (if l.getLast? = some chCr then r ++ l.dropLast ++ [chNl]
            else if l = [] ∧ r.getLast? = some chCr then r.dropLast ++ [chNl]
            else r ++ l ++ [chNl]) = stripCr (r ++ l) ++ [chNl] := by
            by_cases hl : l = []
            · subst hl
              simp only [List.getLast?_nil, reduceCtorEq, if_false, true_and, List.append_nil,
                stripCr]
              split <;> rfl
            · rw [stripCr_append hl]
              simp only [stripCr, hl, false_and, if_false]
              split <;> simp
          rw [hline, hst, readLine_nl hnl]
          dsimp only
          have hend : (if rest ≠ [] then s'.addBuf rest else s').Ok ∧
              (if rest ≠ [] then s'.addBuf rest else s').kernel = s'.kernel ∧
              (if rest ≠ [] then s'.addBuf rest else s').view = rest ++ s'.view ∧
              (s'.Live → (if rest ≠ [] then s'.addBuf rest else s').Live) := by
            by_cases he : rest = []
            · simp only [he, ne_eq, not_true_eq_false, if_false, List.nil_append]
              exact ⟨n1, trivial, trivial, id⟩
            · simp only [ne_eq, he, not_false_eq_true, if_true]
              refine ⟨(Conn.ok_addBuf (Sock.conn_ok n1) rest).2, rfl, ?_, id⟩
              have : (s'.addBuf rest).view = (s'.conn.addBuf rest).rest ++ s'.stream := rfl
              rw [this, Conn.rest_addBuf, m4, hsv]; rfl
          obtain ⟨e1, e2, e3, e4⟩ := hend
          refine ⟨e1, by rw [e2]; exact n2, ⟨r ++ l ++ [chNl], by rw [e3]; simp⟩, ?_, ?_⟩
          · intro l' hl'
            simp only [SockRes.ok.injEq] at hl'
            rw [← hl', e3]
          · intro hl _
            right
            refine ⟨_, rfl, e4 ?_⟩
            rcases nl hl with ⟨d, _, h, h', _⟩ | h
            · exact h'
            · exfalso
              rw [m1, h1] at h
              simp at h
        · have htw : t.takeWhile (· ≠ chNl) = t := takeWhile_nl_all hs
          simp only [htw, Nat.lt_irrefl, if_false]
          obtain ⟨i1, i2, i3, i4, i5⟩ := ih (r ++ t) s' n1 n2 (by simp [hr, hs]) (.inr m4)
          rw [List.append_assoc, ← m1] at i3 i4 i5
          refine ⟨i1, i2, i3, i4, ?_⟩
          intro hl hf
          rcases nl hl with ⟨d, _, h, h', _⟩ | h
          · apply i5 h'
            simp only [hb, m4, if_true] at hf ⊢
            omega
          · exact .inl (hnone h)
    · -- from the buffer
      have hr0 : r = [] := by rcases hrest with h | h
                              · exact h
                              · exact absurd h hb
      subst hr0
      rw [Sock.readForLine_buf hup' hb]
      simp only [List.nil_append]
      have hsv : s.view = s.conn.rest ++ s.stream := rfl
      rcases Conn.lineFromBuf_spec (Sock.conn_ok hok) hb with
        ⟨l, rest, h1, h2, h3, h4, h5, h6, h7⟩ | ⟨h1, h2⟩
      · have hst : s.view = l ++ chNl :: (rest ++ s.stream) := by
          simp [hsv, h1]
        have hst' : ({ s with buf := s.conn.lineFromBuf.2.buf } : Sock).view =
            rest ++ s.stream := by
          have : ({ s with buf := s.conn.lineFromBuf.2.buf } : Sock).view =
            ({ buf := s.conn.lineFromBuf.2.buf } : Conn).rest ++ s.stream := rfl
          rw [this, ← h4]; rfl
        have hg : ∃ g, s.view =
            g ++ ({ s with buf := s.conn.lineFromBuf.2.buf } : Sock).view :=
          ⟨l ++ [chNl], by rw [hst, hst']; simp⟩
        rw [hst, readLine_nl h2, h3]
        rw [hst] at hg
        rw [if_pos (by simp)]
        simp only [List.dropLast_concat]
        have hk : ({ s with buf := s.conn.lineFromBuf.2.buf } : Sock).Ok := h6.2
        by_cases hcr : l.getLast? = some chCr
        · have : 1 < (l ++ [chNl]).length := by
            have : l ≠ [] := by rintro rfl; simp at hcr
            have := List.length_pos_iff.2 this
            simp; omega
          rw [if_pos ⟨this, hcr⟩]
          simp only [stripCr, hcr, if_true]
          refine ⟨hk, hi, hg, ?_, fun hl _ => .inr ⟨_, rfl, hl⟩⟩
          intro l' hl'
          simp only [SockRes.ok.injEq] at hl'
          rw [← hl', hst']
        · rw [if_neg (fun h => hcr h.2)]
          simp only [stripCr, hcr, if_false]
          refine ⟨hk, hi, hg, ?_, fun hl _ => .inr ⟨_, rfl, hl⟩⟩
          intro l' hl'
          simp only [SockRes.ok.injEq] at hl'
          rw [← hl', hst']
      · simp only [h2]
        have hlast : s.conn.rest.getLast? ≠ some chNl := by
          intro h
          exact h1 (List.mem_of_getLast? h)
        rw [if_neg (by simp [hlast])]
        simp only [takeWhile_nl_all h1, Nat.lt_irrefl, if_false]
        have hk : ({ s with buf := none } : Sock).Ok := fun w pos h => by simp at h
        obtain ⟨i1, i2, i3, i4, i5⟩ := ih s.conn.rest { s with buf := none } hk hi h1 (.inr rfl)
        have hst : s.conn.rest ++ ({ s with buf := none } : Sock).view = s.view := rfl
        rw [hst] at i3 i4 i5
        refine ⟨i1, i2, i3, i4, ?_⟩
        intro hl hf
        apply i5 hl
        simp only [hb, if_false] at hf
        simp only [Sock.conn, Conn.rest, if_true]
        omega

/-- One `read` for a block. -/
theorem Sock.readForSize_spec (s : Sock) (hok : s.Ok) (hi : NoIntr s.kernel)
    (e : Nat) (he : 0 < e) :
    (s.readForSize e).2.Ok ∧ NoIntr (s.readForSize e).2.kernel ∧
    (∃ g, s.view = g ++ (s.readForSize e).2.view) ∧
    (∀ d, (s.readForSize e).1 = .ok d → s.view = d ++ (s.readForSize e).2.view ∧
      ((s.readForSize e).2.conn.rest = [] ∨ d.length ≤ e)) ∧
    (s.Live → s.view.length < e ∨ ∃ d, (s.readForSize e).1 = .ok d ∧ (s.readForSize e).2.Live ∧
      (e ≤ d.length ∨ (s.readForSize e).2.kernel.length +
          (if (s.readForSize e).2.conn.rest = [] then 0 else 1) <
        s.kernel.length + (if s.conn.rest = [] then 0 else 1))) := by
  by_cases hup : s.up = false
  · have : s.readForSize e = (.ret (-1), s) := by
      unfold Sock.readForSize
      rw [if_pos hup]
    rw [this]
    refine ⟨hok, hi, ⟨[], rfl⟩, by simp, ?_⟩
    intro h; rw [h.1] at hup; cases hup
  have hup' : s.up = true := by simpa using hup
  by_cases hb : s.conn.rest = []
  · rw [Sock.readForSize_net hup' hb]
    obtain ⟨n1, n2, n3, n4, n5⟩ := Sock.fromNet_spec s hok hi hb e
    refine ⟨n1, n2, n3, ?_, ?_⟩
    · intro d hd
      obtain ⟨m1, m2, m3, m4⟩ := n5 d hd
      exact ⟨m1, m4.imp id (fun h => by omega)⟩
    · intro hl
      rcases Sock.fromNet_live s hl hb e with ⟨d, h1, h2, h3, h4⟩ | h
      · right
        refine ⟨d, h2, h3, ?_⟩
        obtain ⟨m1, m2, m3, m4⟩ := n5 d h2
        rcases m4 with h | h
        · right; rw [if_pos h]; omega
        · left; omega
      · left; omega
  · rw [Sock.readForSize_buf hup' hb]
    obtain ⟨a1, a2, a3, a4, a5, a6⟩ :=
      Conn.sizeFromBuf_spec s.conn (Sock.conn_ok hok) hb e he
    have hv : s.view = (s.conn.sizeFromBuf e).1 ++
        ({ s with buf := (s.conn.sizeFromBuf e).2.buf } : Sock).view := by
      have h1 : s.conn.stream = s.conn.rest := by simp [Conn.stream, Sock.conn]
      have h2 : (s.conn.sizeFromBuf e).2.stream = (s.conn.sizeFromBuf e).2.rest := by
        have hn : s.conn.net = [] := rfl
        simp [Conn.stream, a4, hn]
      rw [h1, h2] at a1
      have h3 : ({ s with buf := (s.conn.sizeFromBuf e).2.buf } : Sock).view =
        (s.conn.sizeFromBuf e).2.rest ++ s.stream := rfl
      rw [h3, ← List.append_assoc, a1]; rfl
    refine ⟨a2.2, hi, ⟨_, hv⟩, ?_, ?_⟩
    · intro d hd
      simp only [SockRes.ok.injEq] at hd
      rw [← hd]
      exact ⟨hv, .inr a6⟩
    · intro hl
      right
      refine ⟨_, rfl, hl, ?_⟩
      rcases a5 with h | h
      · right
        have : ({ s with buf := (s.conn.sizeFromBuf e).2.buf } : Sock).conn.rest = [] := h
        simp only [this, hb, if_true, if_false]
        omega
      · left; omega

/-- The loop of `readsize` reads the next bytes of the stream. -/
theorem sockSizeLoop_spec (fuel n : Nat) (data : Bytes) (s : Sock) (hok : s.Ok)
    (hi : NoIntr s.kernel) (hd : data.length ≤ n) :
    (sockSizeLoop fuel n data s).2.Ok ∧ NoIntr (sockSizeLoop fuel n data s).2.kernel ∧
    (∃ g, data ++ s.view = g ++ (sockSizeLoop fuel n data s).2.view) ∧
    (∀ x, (sockSizeLoop fuel n data s).1 = .ok x →
      x ++ (sockSizeLoop fuel n data s).2.view = data ++ s.view ∧ x.length = n) ∧
    (s.Live → data.length = n ∧ 0 < fuel ∨
        s.kernel.length + (if s.conn.rest = [] then 0 else 1) + 1 < fuel →
      (data ++ s.view).length < n ∨
      ∃ x, (sockSizeLoop fuel n data s).1 = .ok x ∧ (sockSizeLoop fuel n data s).2.Live) := by
  induction fuel generalizing data s with
  | zero =>
    simp only [sockSizeLoop]
    exact ⟨hok, hi, ⟨data, rfl⟩, by simp, by omega⟩
  | succ fuel ih =>
    simp only [sockSizeLoop]
    by_cases hlt : data.length < n
    · rw [if_pos hlt]
      obtain ⟨n1, n2, ⟨g, hg⟩, n4, n5⟩ :=
        Sock.readForSize_spec s hok hi (n - data.length) (by omega)
      obtain ⟨x, s', hx⟩ : ∃ x s', s.readForSize (n - data.length) = (x, s') := ⟨_, _, rfl⟩
      rw [hx] at n1 n2 hg n4 n5
      rw [hx]
      dsimp only at n1 n2 hg n4 n5 ⊢
      cases x with
      | waiting =>
        refine ⟨n1, n2, ⟨data ++ g, by rw [hg, List.append_assoc]⟩, by simp, ?_⟩
        intro hl _
        rcases n5 hl with h | ⟨d, h, _⟩
        · left; simp only [List.length_append]; omega
        · cases h
      | ret m =>
        refine ⟨n1, n2, ⟨data ++ g, by rw [hg, List.append_assoc]⟩, by simp, ?_⟩
        intro hl _
        rcases n5 hl with h | ⟨d, h, _⟩
        · left; simp only [List.length_append]; omega
        · cases h
      | ok t =>
        obtain ⟨a1, a2⟩ := n4 t rfl
        have hlive : s.Live → s.view.length < n - data.length ∨ s'.Live ∧
            (n - data.length ≤ t.length ∨
              s'.kernel.length + (if s'.conn.rest = [] then 0 else 1) <
                s.kernel.length + (if s.conn.rest = [] then 0 else 1)) := by
          intro hl
          rcases n5 hl with h | ⟨d, h, h', h''⟩
          · exact .inl h
          · simp only [SockRes.ok.injEq] at h
            subst h
            exact .inr ⟨h', h''⟩
        dsimp only
        by_cases h1 : data.length = 0 ∧ t.length = n
        · rw [if_pos h1]
          have : data = [] := List.length_eq_zero_iff.1 h1.1
          subst this
          refine ⟨n1, n2, ⟨t, by simpa using a1⟩, ?_, ?_⟩
          · intro x hx
            simp only [SockRes.ok.injEq] at hx
            subst hx
            exact ⟨by simpa using a1.symm, h1.2⟩
          · intro hl _
            rcases hlive hl with h | ⟨h, _⟩
            · left; simpa using h
            · exact .inr ⟨_, rfl, h⟩
        · rw [if_neg h1]
          by_cases h2 : n ≤ data.length + t.length
          · rw [if_pos h2]
            obtain ⟨u, hu⟩ : ∃ u, u = (if 0 < t.length - (n - data.length) then
              s'.addBuf (t.drop (n - data.length)) else s') := ⟨_, rfl⟩
            have hlen : (data ++ t.take (n - data.length)).length = n := by
              simp; omega
            have hst : data ++ t.take (n - data.length) ++ u.view = data ++ s.view := by
              rw [a1, hu]
              by_cases h3 : 0 < t.length - (n - data.length)
              · rw [if_pos h3]
                have hr' : s'.conn.rest = [] := by
                  rcases a2 with h | h
                  · exact h
                  · omega
                have hs' : (s'.addBuf (t.drop (n - data.length))).view =
                    t.drop (n - data.length) ++ s'.view := by
                  have : (s'.addBuf (t.drop (n - data.length))).view =
                    (s'.conn.addBuf (t.drop (n - data.length))).rest ++ s'.stream := rfl
                  rw [this, Conn.rest_addBuf, hr']
                  simp [Sock.view, hr']
                rw [hs', List.append_assoc, ← List.append_assoc (t.take _),
                  List.take_append_drop]
              · rw [if_neg h3, List.append_assoc,
                  List.take_of_length_le (l := t) (by omega)]
            have huk : u.kernel = s'.kernel ∧ u.Ok ∧ (s'.Live → u.Live) := by
              rw [hu]
              split
              · exact ⟨rfl, (Conn.ok_addBuf (Sock.conn_ok n1) _).2, id⟩
              · exact ⟨rfl, n1, id⟩
            obtain ⟨i1, i2, i3, i4, i5⟩ := ih (data ++ t.take (n - data.length)) u huk.2.1
              (by rw [huk.1]; exact n2) (by omega)
            rw [hst] at i3 i4 i5
            rw [← hu]
            refine ⟨i1, i2, i3, i4, ?_⟩
            intro hl hf
            rcases hlive hl with h | ⟨h, _⟩
            · left; simp only [List.length_append]; omega
            · exact i5 (huk.2.2 h) (.inl ⟨hlen, by omega⟩)
          · rw [if_neg h2]
            obtain ⟨i1, i2, i3, i4, i5⟩ := ih (data ++ t) s' n1 n2 (by simp; omega)
            rw [List.append_assoc, ← a1] at i3 i4 i5
            refine ⟨i1, i2, i3, i4, ?_⟩
            intro hl hf
            rcases hlive hl with h | ⟨h, h'⟩
            · left; simp only [List.length_append]; omega
            · exact i5 h (.inr (by omega))
    · rw [if_neg hlt]
      refine ⟨hok, hi, ⟨data, rfl⟩, ?_, fun hl _ => .inr ⟨_, rfl, hl⟩⟩
      intro x hx
      simp only [SockRes.ok.injEq] at hx
      subst hx
      exact ⟨rfl, by omega⟩

theorem Sock.readline_spec (s : Sock) (hok : s.Ok) (hi : NoIntr s.kernel) :
    s.readline.2.Ok ∧ NoIntr s.readline.2.kernel ∧ (∃ g, s.view = g ++ s.readline.2.view) ∧
    (∀ l, s.readline.1 = .ok l → readLine s.view = some (l, s.readline.2.view)) ∧
    (s.Live → readLine s.view = none ∨ ∃ l, s.readline.1 = .ok l ∧ s.readline.2.Live) := by
  obtain ⟨h1, h2, h3, h4, h5⟩ :=
    sockLineLoop_spec (s.kernel.length + 2) [] s hok hi (by simp) (.inl rfl)
  exact ⟨h1, h2, h3, h4, fun hl => h5 hl (by split <;> omega)⟩

theorem Sock.readsize_spec (s : Sock) (hok : s.Ok) (hi : NoIntr s.kernel) (n : Nat) :
    (s.readsize n).2.Ok ∧ NoIntr (s.readsize n).2.kernel ∧
    (∃ g, s.view = g ++ (s.readsize n).2.view) ∧
    (∀ x, (s.readsize n).1 = .ok x → x ++ (s.readsize n).2.view = s.view ∧ x.length = n) ∧
    (s.Live → s.view.length < n ∨ ∃ x, (s.readsize n).1 = .ok x ∧ (s.readsize n).2.Live) := by
  obtain ⟨h1, h2, h3, h4, h5⟩ :=
    sockSizeLoop_spec (s.kernel.length + 3) n [] s hok hi (by simp)
  exact ⟨h1, h2, h3, h4, fun hl => h5 hl (.inr (by split <;> omega))⟩

/-! ### The counter -/

theorem Sock.fromNet_counted (s : Sock) (e : Nat) :
    (s.fromNet e).2.counted + (s.fromNet e).2.stream.length = s.counted + s.stream.length := by
  have := recvLoop_counted e s.buf.isNone s.kernel none [] s.stream s.counted
  simp only [Sock.fromNet]
  split <;> exact this

theorem sockLineLoop_counted (fuel : Nat) (r : Bytes) (s : Sock) :
    (sockLineLoop fuel r s).2.counted + (sockLineLoop fuel r s).2.stream.length =
      s.counted + s.stream.length := by
  induction fuel generalizing r s with
  | zero => rfl
  | succ fuel ih =>
    have key : s.readForLine.2.2.counted + s.readForLine.2.2.stream.length =
        s.counted + s.stream.length := by
      unfold Sock.readForLine
      split
      · rfl
      · split
        · rfl
        · exact Sock.fromNet_counted s 0
    simp only [sockLineLoop]
    obtain ⟨x, a, s', hx⟩ : ∃ x a s', s.readForLine = (x, a, s') := ⟨_, _, _, rfl⟩
    rw [hx] at key ⊢
    cases x with
    | waiting => exact key
    | ret n => exact key
    | ok t =>
      dsimp only at key ⊢
      split
      · split <;> exact key
      · split
        · dsimp only
          split <;> exact key
        · rw [ih]; exact key

theorem sockSizeLoop_counted (fuel n : Nat) (data : Bytes) (s : Sock) :
    (sockSizeLoop fuel n data s).2.counted + (sockSizeLoop fuel n data s).2.stream.length =
      s.counted + s.stream.length := by
  induction fuel generalizing data s with
  | zero => rfl
  | succ fuel ih =>
    simp only [sockSizeLoop]
    split
    · have key : (s.readForSize (n - data.length)).2.counted +
          (s.readForSize (n - data.length)).2.stream.length = s.counted + s.stream.length := by
        unfold Sock.readForSize
        split
        · rfl
        · split
          · rfl
          · exact Sock.fromNet_counted s _
      obtain ⟨x, s', hx⟩ : ∃ x s', s.readForSize (n - data.length) = (x, s') := ⟨_, _, rfl⟩
      rw [hx] at key ⊢
      cases x with
      | waiting => exact key
      | ret n => exact key
      | ok t =>
        dsimp only at key ⊢
        split
        · exact key
        · split
          · rw [ih]; split <;> exact key
          · rw [ih]; exact key
    · rfl

theorem pourCount_eq (ks : List Kernel) (p : Bytes) (cnt : Nat) :
    pourCount ks p.length cnt = cnt + (pour ks p).1.length := by
  induction ks generalizing p cnt with
  | nil => cases p <;> simp [pourCount, pour]
  | cons k ks ih =>
    cases p with
    | nil => simp [pourCount, pour]
    | cons c p =>
      cases k with
      | took k =>
        simp only [List.length_cons, pourCount, pour, List.length_append, List.length_take]
        have := ih (p.drop k) (cnt + min (k + 1) (p.length + 1))
        rw [List.length_drop] at this
        rw [this]
        omega
      | zero => simp [pourCount, pour]
      | fail => simp [pourCount, pour]
      | ready =>
        simp only [List.length_cons, pourCount, pour]
        exact ih (c :: p) cnt
      | timeout =>
        simp only [List.length_cons, pourCount, pour]
        exact ih (c :: p) cnt
      | intr =>
        simp only [List.length_cons, pourCount, pour]
        exact ih (c :: p) cnt

end Flare
