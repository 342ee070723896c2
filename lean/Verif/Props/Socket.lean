import Verif.Lemmas.Socket

/-! C100: reads at the level of system calls. -/
namespace Flare

/-- C100.  Whatever lines and blocks are asked for, and whatever `poll`, `ioctl` and `read` answer
-- parts of any length, EAGAIN, timeouts, errors, the end of the stream at any moment: as long as no
`read` is interrupted by a signal, the bytes returned up to the first read that fails are the lines
and blocks of the flat stream. -/
theorem C100_reads_partial (calls : List ReadCall) (s : Sock) (hok : s.Ok)
    (hi : NoIntr s.kernel) : (s.reads calls).map some <+: flatReads calls s.view := by
  induction calls generalizing s with
  | nil => exact List.prefix_refl _
  | cons call calls ih =>
    cases call with
    | line =>
      obtain ⟨h1, h2, -, h4, -⟩ := Sock.readline_spec s hok hi
      obtain ⟨x, s', hx⟩ : ∃ x s', s.readline = (x, s') := ⟨_, _, rfl⟩
      rw [hx] at h1 h2 h4
      simp only [Sock.reads, flatReads, hx]
      cases x with
      | ok d =>
        rw [h4 d rfl]
        simp only [List.map_cons, List.cons_prefix_cons, true_and]
        exact ih s' h1 h2
      | ret n => exact List.nil_prefix
      | waiting => exact List.nil_prefix
    | size n =>
      obtain ⟨h1, h2, -, h4, -⟩ := Sock.readsize_spec s hok hi n
      obtain ⟨x, s', hx⟩ : ∃ x s', s.readsize n = (x, s') := ⟨_, _, rfl⟩
      rw [hx] at h1 h2 h4
      simp only [Sock.reads, flatReads, hx]
      cases x with
      | ok d =>
        obtain ⟨e1, e2⟩ := h4 d rfl
        dsimp only at e1
        rw [← e1, if_neg (by simp [e2])]
        have ht : (d ++ s'.view).take n = d := by rw [← e2]; exact List.take_left
        have hd : (d ++ s'.view).drop n = s'.view := by rw [← e2]; exact List.drop_left
        rw [ht, hd]
        simp only [List.map_cons, List.cons_prefix_cons, true_and]
        exact ih s' h1 h2
      | ret n => exact List.nil_prefix
      | waiting => exact List.nil_prefix

/-- "ab\r\nxyz\n": the line in three pieces with an EAGAIN, then a block, then a timeout. -/
example : ({ stream := [97, 98, 13, 10, 120, 121, 122, 10], kernel :=
      [{ avail := some 2, recv := .bytes 0 }, { recv := .again }, {}, { avail := some 3, recv := .bytes 5 },
       { avail := some 2, recv := .bytes 5 }, { poll := .timeout }] } : Sock).reads
      [.line, .size 2, .line] = [[97, 98, 10], [120, 121]] := by decide +kernel

/-- C100.  Where no system call fails and each `read` takes at least one byte for as long as there
are any, nothing is missing either: the reads return all the lines and blocks of the flat stream,
however the kernel cuts it. -/
theorem C100_live (calls : List ReadCall) (s : Sock) (hok : s.Ok) (hup : s.up = true)
    (hg : ∀ t ∈ s.kernel, t.Good) (hk : s.stream.length < s.kernel.length) :
    (s.reads calls).map some = (flatReads calls s.view).filter Option.isSome := by
  have hl : s.Live := ⟨hup, hg, hk⟩
  clear hup hg hk
  induction calls generalizing s with
  | nil => rfl
  | cons call calls ih =>
    have hi : NoIntr s.kernel := fun t ht => by
      obtain ⟨_, _, k, hk⟩ := hl.2.1 t ht
      rw [hk]; simp
    cases call with
    | line =>
      obtain ⟨h1, h2, -, h4, h5⟩ := Sock.readline_spec s hok hi
      obtain ⟨x, s', hx⟩ : ∃ x s', s.readline = (x, s') := ⟨_, _, rfl⟩
      rw [hx] at h1 h4 h5
      simp only [Sock.reads, flatReads, hx]
      cases x with
      | ok d =>
        rw [h4 d rfl]
        simp only [List.map_cons, Option.isSome_some, List.filter_cons_of_pos, List.cons.injEq,
          true_and]
        rcases h5 hl with h | ⟨_, _, h⟩
        · rw [h4 d rfl] at h; cases h
        · exact ih s' h1 h
      | ret n =>
        rcases h5 hl with h | ⟨_, h, _⟩
        · rw [h]; rfl
        · cases h
      | waiting =>
        rcases h5 hl with h | ⟨_, h, _⟩
        · rw [h]; rfl
        · cases h
    | size n =>
      obtain ⟨h1, h2, -, h4, h5⟩ := Sock.readsize_spec s hok hi n
      obtain ⟨x, s', hx⟩ : ∃ x s', s.readsize n = (x, s') := ⟨_, _, rfl⟩
      rw [hx] at h1 h4 h5
      simp only [Sock.reads, flatReads, hx]
      cases x with
      | ok d =>
        obtain ⟨e1, e2⟩ := h4 d rfl
        dsimp only at e1
        rw [← e1, if_neg (by simp [e2])]
        have ht : (d ++ s'.view).take n = d := by rw [← e2]; exact List.take_left
        have hd : (d ++ s'.view).drop n = s'.view := by rw [← e2]; exact List.drop_left
        rw [ht, hd]
        simp only [List.map_cons, Option.isSome_some, List.filter_cons_of_pos, List.cons.injEq,
          true_and]
        rcases h5 hl with h | ⟨_, _, h⟩
        · rw [← e1] at h; simp [e2] at h; omega
        · exact ih s' h1 h
      | ret m =>
        rcases h5 hl with h | ⟨_, h, _⟩
        · rw [if_pos h]; rfl
        · cases h
      | waiting =>
        rcases h5 hl with h | ⟨_, h, _⟩
        · rw [if_pos h]; rfl
        · cases h

example : ({ stream := [97, 98, 13, 10, 120, 121, 122, 10], kernel := List.replicate 9 {} } :
      Sock).reads [.line, .size 2, .line, .size 1] = [[97, 98, 10], [120, 121], [122, 10]] := by
  decide +kernel

/-- C100.  The counter `bytes_read` goes up by exactly the bytes taken from the socket, whatever the
system calls answer and whether or not the reads succeed. -/
theorem C100_counted (calls : List ReadCall) (s : Sock) :
    (s.after calls).counted + (s.after calls).stream.length = s.counted + s.stream.length := by
  induction calls generalizing s with
  | nil => rfl
  | cons call calls ih =>
    cases call with
    | line =>
      simp only [Sock.after]
      rw [ih]
      exact sockLineLoop_counted ..
    | size n =>
      simp only [Sock.after]
      rw [ih]
      exact sockSizeLoop_counted ..

example : (({ stream := [97, 98, 99, 10, 100], kernel := [{ avail := some 3, recv := .bytes 2 },
      { poll := .timeout }] } : Sock).after [.size 4]).counted = 3 := by decide +kernel

/-- C100.  The counter `bytes_written` goes up by exactly the bytes the kernel has taken. -/
theorem C100_written (ks : List Kernel) (p : Bytes) (cnt : Nat) :
    pourCount ks p.length cnt = cnt + (pour ks p).1.length := pourCount_eq ks p cnt

example : pourCount [.took 1, .intr, .took 0, .fail] 5 10 = 13 := by decide

/-- C100.  Reads that fail do not put anything out of order: what can still be read is always an end
of what could be read before. -/
theorem C100_suffix (calls : List ReadCall) (s : Sock) (hok : s.Ok) (hi : NoIntr s.kernel) :
    ∃ g, s.view = g ++ (s.after calls).view := by
  induction calls generalizing s with
  | nil => exact ⟨[], rfl⟩
  | cons call calls ih =>
    cases call with
    | line =>
      obtain ⟨h1, h2, ⟨g, hg⟩, -, -⟩ := Sock.readline_spec s hok hi
      obtain ⟨g', hg'⟩ := ih _ h1 h2
      exact ⟨g ++ g', by simp only [Sock.after]; rw [hg, List.append_assoc, ← hg']⟩
    | size n =>
      obtain ⟨h1, h2, ⟨g, hg⟩, -, -⟩ := Sock.readsize_spec s hok hi n
      obtain ⟨g', hg'⟩ := ih _ h1 h2
      exact ⟨g ++ g', by simp only [Sock.after]; rw [hg, List.append_assoc, ← hg']⟩

/-- The turn in which `read` finds the bytes `a`. -/
def Turn.finds (a : Bytes) : Turn := ⟨.ready, some a.length, .bytes (a.length - 1)⟩

/-- C100 fails for reads that time out, or are interrupted while they wait in `poll`: the bytes `a`
that had arrived are dropped, the connection stays open, and whatever is read next starts in the
middle of the block. -/
theorem C100_timeout_lost (n : Nat) (a b : Bytes) (ha : a ≠ []) (hn : a.length < n)
    (t : Turn) (ht : t.poll = .timeout ∨ t.poll = .err true) (ks : List Turn) (cnt : Nat) :
    ({ stream := a ++ b, counted := cnt, kernel := Turn.finds a :: t :: ks } : Sock).readsize n =
      (.ret (-1), { stream := b, counted := cnt + a.length, kernel := ks }) := by
  have hl := List.length_pos_iff.2 ha
  have hm : min (a.length - 1 + 1) (a.length) = a.length := by omega
  have hend : ∀ (e : Nat) (acc : Bytes) (bs : Option Nat) (nb : Bool) (c : Nat),
      recvLoop e nb (t :: ks) bs acc b c = ⟨.err false, b, c, ks⟩ := by
    intro e acc bs nb c
    rcases ht with h | h <;> simp [recvLoop, h]
  by_cases h : 1024 < n
  · have h1 : recvLoop n true (Turn.finds a :: t :: ks) none [] (a ++ b) cnt =
        ⟨.err false, b, cnt + a.length, ks⟩ := by
      rw [recvLoop]
      have hm' : min (a.length - 1 + 1) n = a.length := by omega
      simp only [Turn.finds, Option.none_or, h, if_true, List.length_nil, Nat.sub_zero, hm',
        List.take_left, List.drop_left, ha, if_false, List.nil_append]
      rw [if_neg (by omega)]
      exact hend ..
    simp only [Sock.readsize, sockSizeLoop, List.length_nil, Nat.sub_zero]
    rw [if_pos (by omega), Sock.readForSize_net rfl rfl]
    simp only [Sock.fromNet, Option.isNone_none, h1]
  · have h1 : recvLoop n true (Turn.finds a :: t :: ks) none [] (a ++ b) cnt =
        ⟨.data a, b, cnt + a.length, t :: ks⟩ := by
      rw [recvLoop]
      have hm0 : min a.length (a ++ b).length = a.length := by simp
      simp only [Turn.finds, Option.none_or, h, if_false, Option.map_some, hm0, List.length_nil,
        Nat.sub_zero, hm, List.take_left, List.drop_left, ha, List.nil_append, Nat.le_refl,
        if_true]
      rw [if_neg (by omega)]
    simp only [Sock.readsize, sockSizeLoop, List.length_nil, Nat.sub_zero]
    rw [if_pos (by omega), Sock.readForSize_net rfl rfl]
    simp only [Sock.fromNet, Option.isNone_none, h1]
    rw [if_neg (by omega), if_neg (by omega), List.nil_append, if_pos hn,
      Sock.readForSize_net rfl rfl]
    simp only [Sock.fromNet, Option.isNone_none, hend]

/-- The block "abcd" of which only "ab" arrives in time: the next line read is its end. -/
example : ({ stream := [97, 98, 99, 100, 13, 10], kernel :=
      [Turn.finds [97, 98], { poll := .timeout }, Turn.finds [99, 100, 13, 10]] } : Sock).readsize 4 =
      (.ret (-1), { stream := [99, 100, 13, 10], counted := 2, kernel := [Turn.finds [99, 100, 13, 10]] }) ∧
    ({ stream := [99, 100, 13, 10], counted := 2, kernel := [Turn.finds [99, 100, 13, 10]] } :
      Sock).reads [.line] = [[99, 100, 10]] := by decide +kernel

/-- A turn in which the peer closes the connection, or a system call fails for good, and what is
returned then. -/
def Turn.Closes (t : Turn) (v : Int) : Prop :=
  (t.poll = .err false ∧ v = -1) ∨
  (t.poll = .ready ∧ t.avail ≠ none ∧ t.recv = .eof ∧ v = -2) ∨
  (t.poll = .ready ∧ t.avail ≠ none ∧ t.recv = .fail ∧ v = -1)

theorem Turn.Closes.loop {t : Turn} {v : Int} (h : t.Closes v) (e : Nat) (nb : Bool) (ks : List Turn)
    (bs : Option Nat) (acc b : Bytes) (c : Nat) :
    ∃ x, recvLoop e nb (t :: ks) bs acc b c = ⟨x, b, c, ks⟩ ∧
      ((x = .err true ∧ v = -1) ∨ (x = .eof ∧ v = -2)) := by
  rcases h with ⟨h, hv⟩ | ⟨h, ha, hr, hv⟩ | ⟨h, ha, hr, hv⟩
  · exact ⟨.err true, by simp [recvLoop, h], .inl ⟨rfl, hv⟩⟩
  all_goals
    obtain ⟨n, hn⟩ : ∃ n, bs.or (if 1024 < e then some e
        else t.avail.map (fun a => min a b.length)) = some n := by
      cases bs with
      | some n => exact ⟨n, rfl⟩
      | none =>
        cases hav : t.avail with
        | none => exact absurd hav ha
        | some a => by_cases h : 1024 < e <;> simp [h]
  · exact ⟨.eof, by simp only [recvLoop, h, hn, hr], .inr ⟨rfl, hv⟩⟩
  · exact ⟨.err true, by simp only [recvLoop, h, hn, hr], .inl ⟨rfl, hv⟩⟩

/-- C100.  A block of which only the bytes `a` arrive before the connection ends is never taken for a
whole one: `readsize` fails and the connection is closed, so that no later read starts in the middle
of it. -/
theorem C100_closed (n : Nat) (a b : Bytes) (ha : a ≠ []) (hn : a.length < n)
    (t : Turn) (v : Int) (ht : t.Closes v) (ks : List Turn) (cnt : Nat) :
    ({ stream := a ++ b, counted := cnt, kernel := Turn.finds a :: t :: ks } : Sock).readsize n =
      (.ret v, { up := false, stream := b, counted := cnt + a.length, kernel := ks }) := by
  have hl := List.length_pos_iff.2 ha
  have hm : min (a.length - 1 + 1) (a.length) = a.length := by omega
  by_cases h : 1024 < n
  · obtain ⟨x, hx, hv⟩ := ht.loop n true ks (some n) a b (cnt + a.length)
    have h1 : recvLoop n true (Turn.finds a :: t :: ks) none [] (a ++ b) cnt =
        ⟨x, b, cnt + a.length, ks⟩ := by
      rw [recvLoop]
      have hm' : min (a.length - 1 + 1) n = a.length := by omega
      simp only [Turn.finds, Option.none_or, h, if_true, List.length_nil, Nat.sub_zero, hm',
        List.take_left, List.drop_left, ha, if_false, List.nil_append]
      rw [if_neg (by omega)]
      exact hx
    simp only [Sock.readsize, sockSizeLoop, List.length_nil, Nat.sub_zero]
    rw [if_pos (by omega), Sock.readForSize_net rfl rfl]
    simp only [Sock.fromNet, Option.isNone_none, h1]
    rcases hv with ⟨rfl, rfl⟩ | ⟨rfl, rfl⟩ <;> rfl
  · have h1 : recvLoop n true (Turn.finds a :: t :: ks) none [] (a ++ b) cnt =
        ⟨.data a, b, cnt + a.length, t :: ks⟩ := by
      rw [recvLoop]
      have hm0 : min a.length (a ++ b).length = a.length := by simp
      simp only [Turn.finds, Option.none_or, h, if_false, Option.map_some, hm0, List.length_nil,
        Nat.sub_zero, hm, List.take_left, List.drop_left, ha, List.nil_append, Nat.le_refl,
        if_true]
      rw [if_neg (by omega)]
    simp only [Sock.readsize, sockSizeLoop, List.length_nil, Nat.sub_zero]
    rw [if_pos (by omega), Sock.readForSize_net rfl rfl]
    simp only [Sock.fromNet, Option.isNone_none, h1]
    obtain ⟨x, hx, hv⟩ := ht.loop (n - a.length) true ks none [] b (cnt + a.length)
    rw [if_neg (by omega), if_neg (by omega), List.nil_append, if_pos hn,
      Sock.readForSize_net rfl rfl]
    simp only [Sock.fromNet, Option.isNone_none, hx]
    rcases hv with ⟨rfl, rfl⟩ | ⟨rfl, rfl⟩ <;> rfl

/-- C100.  The same for a line that has no end yet. -/
theorem C100_line_closed (a b : Bytes) (ha : a ≠ []) (hn : chNl ∉ a)
    (t : Turn) (v : Int) (ht : t.Closes v) (ks : List Turn) (cnt : Nat) :
    ({ stream := a ++ b, counted := cnt, kernel := Turn.finds a :: t :: ks } : Sock).readline =
      (.ret v, { up := false, stream := b, counted := cnt + a.length, kernel := ks }) := by
  have hl := List.length_pos_iff.2 ha
  have hm : min (a.length - 1 + 1) (a.length) = a.length := by omega
  have h1 : recvLoop 0 true (Turn.finds a :: t :: ks) none [] (a ++ b) cnt =
      ⟨.data a, b, cnt + a.length, t :: ks⟩ := by
    rw [recvLoop]
    have hm0 : min a.length (a ++ b).length = a.length := by simp
    simp only [Turn.finds, Option.none_or, Option.map_some, hm0, List.length_nil,
      Nat.sub_zero, hm, List.take_left, List.drop_left, ha, List.nil_append, Nat.le_refl,
      if_true, if_false, Nat.not_lt_zero]
    simp
  have h2 := takeWhile_nl_all hn
  obtain ⟨x, hx, hv⟩ := ht.loop 0 true ks none [] b (cnt + a.length)
  simp only [Sock.readline, List.length_cons, sockLineLoop]
  rw [Sock.readForLine_net rfl rfl]
  simp only [Sock.fromNet, Option.isNone_none, h1]
  rw [if_neg (by simp), h2, if_neg (by omega), Sock.readForLine_net rfl rfl]
  simp only [Sock.fromNet, Option.isNone_none, hx]
  rcases hv with ⟨rfl, rfl⟩ | ⟨rfl, rfl⟩ <;> rfl

/-- A block of four bytes whose sender dies behind the second. -/
example : ({ stream := [97, 98], kernel := [Turn.finds [97, 98], { recv := .eof }] } : Sock).readsize 4 =
      (.ret (-2), { up := false, stream := [], counted := 2, kernel := [] }) ∧
    ({ stream := [97, 98], kernel := [Turn.finds [97, 98], { recv := .fail }] } : Sock).readline =
      (.ret (-1), { up := false, stream := [], counted := 2, kernel := [] }) := by decide +kernel

/-- C100 fails for a `read` that is interrupted: the bytes `a` that had arrived are dropped, and the
read of the block goes on as if it had just begun: it succeeds, with the wrong bytes. -/
theorem C100_intr_lost (n : Nat) (a b c : Bytes) (h : 1024 < n) (ha : a ≠ []) (hn : a.length < n)
    (hb : b.length = n) (t : Turn) (ht : t.poll = .ready) (hi : t.recv = .intr)
    (ks : List Turn) (cnt : Nat) :
    ({ stream := a ++ b ++ c, counted := cnt,
       kernel := Turn.finds a :: t :: Turn.finds b :: ks } : Sock).readsize n =
      (.ok b, { stream := c, counted := cnt + a.length + n, kernel := ks }) := by
  have hl := List.length_pos_iff.2 ha
  have h1 : recvLoop n true (Turn.finds a :: t :: Turn.finds b :: ks) none [] (a ++ b ++ c) cnt =
      ⟨.zero, b ++ c, cnt + a.length, Turn.finds b :: ks⟩ := by
    rw [recvLoop]
    have hm' : min (a.length - 1 + 1) n = a.length := by omega
    simp only [Turn.finds, Option.none_or, h, if_true, List.length_nil, Nat.sub_zero, hm',
      List.append_assoc, List.take_left, List.drop_left, ha, if_false, List.nil_append]
    rw [if_neg (by omega)]
    simp only [recvLoop, ht, hi, Option.some_or]
  have hb0 : b ≠ [] := by rintro rfl; simp at hb; omega
  have h2 : recvLoop n true (Turn.finds b :: ks) none [] (b ++ c) (cnt + a.length) =
      ⟨.data b, c, cnt + a.length + n, ks⟩ := by
    rw [recvLoop]
    have hm' : min (b.length - 1 + 1) n = b.length := by omega
    simp only [Turn.finds, Option.none_or, h, if_true, List.length_nil, Nat.sub_zero, hm',
      List.take_left, List.drop_left, hb0, if_false, List.nil_append]
    rw [if_pos (by omega), if_neg (by omega), hb]
  simp only [Sock.readsize, sockSizeLoop, List.length_nil, Nat.sub_zero]
  rw [if_pos (by omega), Sock.readForSize_net rfl rfl]
  simp only [Sock.fromNet, Option.isNone_none, h1]
  rw [if_neg (by simp; omega), if_neg (by simp; omega)]
  simp only [List.append_nil, List.length_nil, Nat.sub_zero]
  rw [if_pos (by omega), Sock.readForSize_net rfl rfl]
  simp only [Sock.fromNet, Option.isNone_none, h2]
  rw [if_pos ⟨trivial, hb⟩]

example : 1024 < 1025 ∧ (List.replicate 7 (0 : UInt8)) ≠ [] ∧
    (List.replicate 7 (0 : UInt8)).length < 1025 ∧ (List.replicate 1025 (1 : UInt8)).length = 1025 ∧
    ({ recv := .intr } : Turn).poll = .ready ∧ ({ recv := .intr } : Turn).recv = .intr := by
  refine ⟨by decide, by decide, by decide, List.length_replicate, rfl, rfl⟩

/-- C100 fails where `poll` reports urgent data while `FIONREAD` reports none: the read asks for 0
bytes, gets them, and takes that for the end of the stream, although there is more to come. -/
theorem C100_urgent_closed (s : Sock) (hup : s.up = true) (hr : s.conn.rest = []) (t : Turn)
    (ht : t.poll = .ready) (h0 : t.avail = some 0) (k : Nat) (hk : t.recv = .bytes k)
    (ks : List Turn) (hs : s.kernel = t :: ks) :
    s.readline.1 = .ret (-2) ∧ s.readline.2.up = false ∧ s.readline.2.view = s.view := by
  have h1 : recvLoop 0 s.buf.isNone (t :: ks) none [] s.stream s.counted =
      ⟨.eof, s.stream, s.counted, ks⟩ := by
    simp [recvLoop, ht, h0, hk]
  simp only [Sock.readline, sockLineLoop]
  rw [Sock.readForLine_net hup hr]
  simp only [Sock.fromNet, hs, h1]
  exact ⟨trivial, trivial, by simp [Sock.view, Sock.conn, Conn.rest] at hr ⊢; exact hr⟩

example : ({ stream := [97, 10], kernel := [{ avail := some 0 }, {}, {}] } : Sock).readline =
    (.ret (-2), { up := false, stream := [97, 10], kernel := [{}, {}] }) := by decide +kernel

end Flare
