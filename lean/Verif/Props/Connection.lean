import Verif.Lemmas.ConnClean

/-! C40: reading from a connection. -/
set_option linter.unusedSimpArgs false
namespace Flare

/-- C40.  Whatever lines and blocks are asked for, in whatever order: a connection gives the
lines and blocks of the flat stream. -/
theorem C40_reads (calls : List ReadCall) (c : Conn) (hok : c.Ok) :
    c.reads calls = flatReads calls c.stream := by
  induction calls generalizing c with
  | nil => rfl
  | cons call calls ih =>
    cases call with
    | line =>
      have h := Conn.readline_spec c hok
      simp only [Conn.reads, flatReads]
      cases hr : c.readline with
      | none => rw [hr] at h; simp only [h]
      | some x =>
        obtain ⟨l, c'⟩ := x
        rw [hr] at h
        simp only [h.1, ih c' h.2]
    | size n =>
      have h := Conn.readsize_spec c hok n
      simp only [Conn.reads, flatReads]
      cases hr : c.readsize n with
      | none => rw [hr] at h; simp only [if_pos h]
      | some x =>
        obtain ⟨l, c'⟩ := x
        rw [hr] at h
        obtain ⟨a, b, d, e⟩ := h
        rw [if_neg (by omega)]
        simp only [ih c' e, a, b]

/-- C40.  Two peers that send the same bytes, cut into pieces in any two ways, are read the
same way. -/
theorem C40_split (calls : List ReadCall) (net net' : List Bytes) (h : ∀ s ∈ net, s ≠ [])
    (h' : ∀ s ∈ net', s ≠ []) (heq : net.flatten = net'.flatten) :
    ({ net := net } : Conn).reads calls = ({ net := net' } : Conn).reads calls := by
  rw [C40_reads _ _ ⟨h, fun _ _ hb => by simp at hb⟩, C40_reads _ _ ⟨h', fun _ _ hb => by simp at hb⟩]
  simp only [Conn.stream, Conn.rest, heq]

example : ({ net := [[97, 98, 13], [10, 120], [121, 122, 10, 99]] } : Conn).reads
    [.line, .size 2, .line, .size 1] = [some [97, 98, 10], some [120, 121], some [122, 10],
      some [99]] := by decide

/-- C40.  A write request is read from a connection as from the flat stream, with the magic
byte and the rest of the line pushed back in between.  Missing: the connection has to be
fresh (see `C40_lost_byte`), the line free of NUL and of a doubled carriage return (see
`C40_double_cr`). -/
theorem C40_request_partial (now : Int64) (first q : Bytes) (hf : first.length = 1024)
    (hq : q.length = 8192) (c : Conn) (hok : c.Ok) (hfresh : c.Fresh)
    (hclean : CleanLine c.stream) (hmagic : c.stream.head? ≠ some 0x80) :
    (∀ r c', Conn.decodeWrite now first q c = .ok (r, c') →
      decodeWrite now first q c.stream = .ok (r, c'.stream)) ∧
    (∀ f, Conn.decodeWrite now first q c = .error f →
      decodeWrite now first q c.stream = .error f) := by
  have h := Conn.decodeWrite_spec (now := now) (first := first) (q := q) (by omega) (by omega) hok
    hfresh hclean hmagic
  constructor
  · intro r c' hd
    rw [hd] at h
    exact h.1
  · intro f hd
    rw [hd] at h
    exact h

/-- C40 with C35.  The writes that one node forwards over a connection arrive at the other
node as they were sent, however the network cuts them, as long as the connection is fresh
whenever a request begins. -/
theorem C40_forwarded_partial (now : Int64) (first q : Bytes) (hf : first.length = 1024)
    (hq : q.length = 8192) (rs : List WriteReq) (bs : List Bytes)
    (hr : ∀ r ∈ rs, Sendable r 8192) (hb : rs.map encodeWrite = bs.map some) (more : Bytes)
    (c : Conn) (hok : c.Ok) (hs : c.stream = bs.flatten ++ more)
    (hfresh : Conn.FreshRun now first q rs.length c) :
    ∃ c', Conn.decodeWrites now first q rs.length c = .ok (rs.map (arrives now), c') ∧
      c'.stream = more := by
  induction rs generalizing bs c with
  | nil =>
    cases bs with
    | cons b bs => simp at hb
    | nil => exact ⟨c, rfl, by simpa using hs⟩
  | cons r rs ih =>
    cases bs with
    | nil => simp at hb
    | cons b bs =>
      simp only [List.map_cons, List.cons.injEq] at hb
      have hsend := hr r (by simp)
      have h1 := decodeWrite_encode (now := now) (first := first) (q := q) (r := r) (b := b)
        (more := bs.flatten ++ more) (by rw [hq]; exact hsend) (by omega) (by omega) hb.1
      have hs' : c.stream = b ++ (bs.flatten ++ more) := by rw [hs]; simp
      have hcl := encode_clean hsend hb.1 (bs.flatten ++ more)
      rw [← hs'] at h1 hcl
      have h := Conn.decodeWrite_spec (now := now) (first := first) (q := q) (by omega) (by omega)
        hok hfresh.1 hcl.1 hcl.2
      cases hd : Conn.decodeWrite now first q c with
      | error f =>
        rw [hd] at h
        dsimp only at h
        rw [h1] at h
        simp at h
      | ok x =>
        obtain ⟨r', c1⟩ := x
        rw [hd] at h
        obtain ⟨h, hok1⟩ := h
        rw [h1] at h
        simp only [Except.ok.injEq, Prod.mk.injEq] at h
        obtain ⟨c2, h2, h3⟩ := ih bs (fun r h => hr r (by simp [h])) hb.2 c1 hok1 h.2.symm
          (hfresh.2 _ _ hd)
        refine ⟨c2, ?_, h3⟩
        simp only [List.length_cons, Conn.decodeWrites, hd, h2, List.map_cons, h.1]

example : Conn.decodeWrites 1700000000 (List.replicate 16 0) (List.replicate 64 0) 2
    { net := ["set k 0 0 3\r".toUTF8.data.toList, "\nab".toUTF8.data.toList,
        "c\r\ndelete k 0\r\nrest".toUTF8.data.toList] } =
    .ok ([{ cmd := .set, entry := { key := [107], size := 3, data := [97, 98, 99] } },
          { cmd := .delete, entry := { key := [107] } }],
      { buf := some ("c\r\ndelete k 0\r\nrest".toUTF8.data.toList, 15), net := [] }) := by
  decide +kernel

/-- C40, violation.  A lazily deleted buffer that is still around takes the place of a
pushed-back byte that came alone from the network: the first byte of the request is lost, and
the last byte of an earlier request is read in its place. -/
theorem C40_lost_byte (w : Bytes) (x : UInt8) (net : List Bytes) (hw : w ≠ []) :
    ∃ y c, w.getLast? = some y ∧
      ({ buf := some (w, w.length), net := [x] :: net } : Conn).readsize 1 = some ([x], c) ∧
      (c.pushBack [x]).stream = y :: net.flatten := by
  have hlen := List.length_pos_iff.2 hw
  refine ⟨w.getLast hw, { buf := some (w, w.length), net := net },
    List.getLast?_eq_some_getLast hw, ?_, ?_⟩
  · simp [Conn.readsize, readsizeLoop, Conn.readForSize, Conn.rest, Conn.fromNet]
  · simp only [Conn.pushBack, List.length_singleton]
    rw [if_pos (by omega)]
    simp only [Conn.stream, Conn.rest]
    congr 1
    have : w = w.dropLast ++ [w.getLast hw] := (List.dropLast_concat_getLast hw).symm
    conv => lhs; rw [this]
    have hl : w.length - 1 = w.dropLast.length := by simp
    rw [List.length_append, List.length_singleton, Nat.add_sub_cancel, List.drop_left]
    rfl

/-- C40, violation.  What that means for a client: after one request whose line and value came
in two pieces, the next store has its first byte delivered alone.  The server reads an empty
line, then an unknown command, and then takes the value `delete victim` for a request.  The
first conjunct is what the server reads, the second what it would have read with the same
bytes in one piece. -/
theorem C40_value_becomes_request :
    let net := ["set a 0 0 1\r\n".toUTF8.data.toList, "x\r\n".toUTF8.data.toList,
      "s".toUTF8.data.toList, "et k 0 0 13\r\ndelete victim\r\n".toUTF8.data.toList]
    let first := List.replicate 16 (0 : UInt8)
    let q := List.replicate 64 (0 : UInt8)
    (∃ r1 c1, Conn.decodeWrite 1700000000 first q { net := net } = .ok (r1, c1) ∧
      ∃ c2, c1.parseServer first = .ok (none, [], c2) ∧
      ∃ l2 c3, c2.readline = some (l2, c3) ∧
      ∃ c4, c3.parseServer first = .ok (none, "et".toUTF8.data.toList, c4) ∧
      ∃ l4 c5, c4.readline = some (l4, c5) ∧
      ∃ c6, Conn.decodeWrite 1700000000 first q c5 = .ok
        ({ cmd := .delete, entry := { key := "victim".toUTF8.data.toList } }, c6)) ∧
    ∃ r1 c1 c2, Conn.decodeWrite 1700000000 first q { net := [net.flatten] } = .ok (r1, c1) ∧
      Conn.decodeWrite 1700000000 first q c1 = .ok
        ({ cmd := .set,
           entry := { key := [107], size := 13, data := "delete victim".toUTF8.data.toList } }, c2) := by
  refine ⟨⟨{ cmd := .set, entry := { key := [97], size := 1, data := [120] } },
      { buf := some ("set a 0 0 1\r\n".toUTF8.data.toList, 13),
        net := ["s".toUTF8.data.toList, "et k 0 0 13\r\ndelete victim\r\n".toUTF8.data.toList] },
      by decide +kernel,
      { buf := some ("set a 0 0 1\r\n".toUTF8.data.toList, 12),
        net := ["et k 0 0 13\r\ndelete victim\r\n".toUTF8.data.toList] }, by decide +kernel,
      [10],
      { buf := some ("set a 0 0 1\r\n".toUTF8.data.toList, 13),
        net := ["et k 0 0 13\r\ndelete victim\r\n".toUTF8.data.toList] }, by decide +kernel,
      { buf := some ("et k 0 0 13\r\ndelete victim\r\n".toUTF8.data.toList, 3), net := [] },
      by decide +kernel,
      "k 0 0 13\n".toUTF8.data.toList,
      { buf := some ("et k 0 0 13\r\ndelete victim\r\n".toUTF8.data.toList, 13), net := [] },
      by decide +kernel,
      { buf := some ("et k 0 0 13\r\ndelete victim\r\n".toUTF8.data.toList, 28), net := [] },
      by decide +kernel⟩, ?_⟩
  refine ⟨{ cmd := .set, entry := { key := [97], size := 1, data := [120] } },
    { buf := some ("set a 0 0 1\r\nx\r\nset k 0 0 13\r\ndelete victim\r\n".toUTF8.data.toList, 16),
      net := [] }, { buf := none, net := [] }, by decide +kernel, by decide +kernel⟩

/-- C40, violation.  A line that ends in two carriage returns is read differently when it lies
in one piece and when its end comes later: the first reading refuses the option `sync\r`. -/
theorem C40_double_cr :
    let l := "delete k 0 sync\r\r\n".toUTF8.data.toList
    let first := List.replicate 16 (0 : UInt8)
    let q := List.replicate 64 (0 : UInt8)
    Conn.decodeWrite 1700000000 first q { net := [l] } = .error .err ∧
    ∃ c, Conn.decodeWrite 1700000000 first q { net := [l.take 5, l.drop 5] } =
      .ok ({ cmd := .delete, entry := { key := [107], option := optSync } }, c) := by
  refine ⟨by decide +kernel, ⟨{ buf := some (" k 0 sync\r\n".toUTF8.data.toList, 11), net := [] },
    by decide +kernel⟩⟩

end Flare
