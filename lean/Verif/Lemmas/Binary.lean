import Verif.Model.Binary
import Verif.Lemmas.Bytes
import Verif.Lemmas.ConnRequest

set_option linter.unusedSimpArgs false
namespace Flare

/-! ### Headers -/

theorem HField.inside (f : HField) : f.off + f.width ≤ hSize := by cases f <;> decide

theorem HField.disjoint {f g : HField} (h : f ≠ g) : f.off + f.width ≤ g.off ∨ g.off + g.width ≤ f.off := by
  cases f <;> cases g <;> first | exact absurd rfl h | decide

theorem hset_length (b : Bytes) (f : HField) (v : Nat) (hb : b.length = hSize) : (hset b f v).length = hSize := by
  have := f.inside
  simp only [hset, List.length_append, List.length_take, List.length_drop, beBytes_length, hb]
  omega

theorem hget_hset (b : Bytes) (f : HField) (v : Nat) (hb : b.length = hSize) :
    hget (hset b f v) f = v % 256 ^ f.width := by
  have hi := f.inside
  have h1 : (b.take f.off).length = f.off := by rw [List.length_take]; omega
  have h2 : (hset b f v).drop f.off = beBytes f.width (v % 256 ^ f.width) ++ b.drop (f.off + f.width) := by
    simp only [hset, List.append_assoc]
    conv => lhs; arg 1; rw [← h1]
    rw [List.drop_left]
  rw [hget, h2]
  have h3 := beBytes_length f.width (v % 256 ^ f.width)
  conv => lhs; arg 1; arg 1; rw [← h3]
  rw [List.take_left, beNat_beBytes (Nat.mod_lt _ (Nat.pow_pos (by omega)))]

theorem getElem?_hset (b : Bytes) (f : HField) (v i : Nat) (hb : b.length = hSize)
    (hi : i < f.off ∨ f.off + f.width ≤ i) : (hset b f v)[i]? = b[i]? := by
  have hin := f.inside
  simp only [hset, List.append_assoc]
  have h1 : (b.take f.off).length = f.off := by rw [List.length_take]; omega
  rcases hi with hi | hi
  · rw [List.getElem?_append_left (by omega), List.getElem?_take, if_pos hi]
  · rw [List.getElem?_append_right (by omega), List.getElem?_append_right (by rw [beBytes_length]; omega),
      List.getElem?_drop, beBytes_length, h1]
    congr 1
    omega

theorem slice_ext {a b : Bytes} {o w : Nat} (h : ∀ i, o ≤ i → i < o + w → a[i]? = b[i]?) :
    (a.drop o).take w = (b.drop o).take w := by
  apply List.ext_getElem?
  intro i
  rw [List.getElem?_take, List.getElem?_take]
  split
  · rw [List.getElem?_drop, List.getElem?_drop]; exact h _ (by omega) (by omega)
  · rfl

theorem hget_hset_ne (b : Bytes) (f g : HField) (v : Nat) (hb : b.length = hSize) (h : f ≠ g) :
    hget (hset b f v) g = hget b g := by
  have hd := HField.disjoint h
  simp only [hget]
  congr 1
  apply slice_ext
  intro i h1 h2
  exact getElem?_hset b f v i hb (by omega)

theorem hget_lt (b : Bytes) (f : HField) : hget b f < 256 ^ f.width := by
  have h1 := leNat_lt (((b.drop f.off).take f.width).reverse)
  have h2 : (((b.drop f.off).take f.width).reverse).length ≤ f.width := by
    rw [List.length_reverse, List.length_take]; omega
  exact Nat.lt_of_lt_of_le h1 (Nat.pow_le_pow_right (by omega) h2)

/-! ### Reading -/

/-- There is no empty, lazily deleted buffer. -/
def Conn.NoLazy (c : Conn) : Prop := c.buf = none ∨ c.rest ≠ []

theorem Conn.NoLazy.fresh {c : Conn} (h : c.NoLazy) : c.Fresh := by
  rcases h with h | h
  · exact Or.inl h
  · exact Or.inr (Or.inl h)

theorem Conn.fromNet_nolazy {c c' : Conn} {n : Nat} {t : Bytes} (hok : c.Ok) (hb : c.buf = none) (hn : 0 < n)
    (h : c.fromNet n = some (t, c')) : c'.buf = none ∨ (c'.rest ≠ [] ∧ ∃ w, c'.buf = some (w, n)) := by
  simp only [Conn.fromNet] at h
  split at h
  · split at h
    · cases h
    · simp only [Option.some.injEq, Prod.mk.injEq] at h
      rw [← h.2]; exact Or.inl hb
  · split at h
    · cases h
    · split at h
      · rename_i hc
        simp only [Option.some.injEq, Prod.mk.injEq] at h
        rw [← h.2]
        refine Or.inr ⟨?_, _, rfl⟩
        simp only [Conn.rest]
        intro h0
        have := congrArg List.length h0
        simp at this
        omega
      · simp only [Option.some.injEq, Prod.mk.injEq] at h
        rw [← h.2]; exact Or.inl hb

/-- The loop of `readsize` once the buffer is used up: a buffer that comes up has an offset below what was
read. -/
theorem readsizeLoop_pos (fuel n : Nat) (data : Bytes) (c c' : Conn) (x : Bytes) (hok : c.Ok)
    (hb : c.buf = none) (hd : data.length ≤ n) (h : readsizeLoop fuel n data c = some (x, c')) :
    c'.buf = none ∨ (c'.rest ≠ [] ∧ ∃ w pos, c'.buf = some (w, pos) ∧ pos + data.length ≤ n) := by
  induction fuel generalizing data c with
  | zero => simp [readsizeLoop] at h
  | succ fuel ih =>
    have hr : c.rest = [] := by simp [Conn.rest, hb]
    rw [readsizeLoop] at h
    split at h
    · rename_i hlt
      have hspec := Conn.fromNet_spec c hok hr (n - data.length) (by omega)
      have hre : c.readForSize (n - data.length) = c.fromNet (n - data.length) := by
        simp [Conn.readForSize, hr]
      rw [hre] at h
      cases hf : c.fromNet (n - data.length) with
      | none => rw [hf] at h; cases h
      | some y =>
        obtain ⟨t, c1⟩ := y
        rw [hf] at h hspec
        dsimp only at h hspec
        have hnl := Conn.fromNet_nolazy hok hb (by omega) hf
        split at h
        · rename_i hc
          simp only [Option.some.injEq, Prod.mk.injEq] at h
          rw [← h.2]
          rcases hnl with hnl | ⟨h1, w, hw⟩
          · exact Or.inl hnl
          · exact Or.inr ⟨h1, w, _, hw, by omega⟩
        · split at h
          · rename_i hge
            cases fuel with
            | zero => simp [readsizeLoop] at h
            | succ fuel =>
              rw [readsizeLoop_done (by rw [List.length_append, List.length_take]; omega)] at h
              simp only [Option.some.injEq, Prod.mk.injEq] at h
              rw [← h.2]
              split
              · rename_i hpos
                refine Or.inr ⟨?_, _, 0, rfl, by omega⟩
                rw [Conn.rest_addBuf]
                intro h0
                have := congrArg List.length h0
                simp at this
                omega
              · rcases hnl with hnl | ⟨h1, w, hw⟩
                · exact Or.inl hnl
                · exact Or.inr ⟨h1, w, _, hw, by omega⟩
          · rename_i hge
            rcases hnl with hnl | ⟨h1, w, hw⟩
            · have := ih (data ++ t) c1 hspec.2.1 hnl (by rw [List.length_append]; omega) h
              rcases this with h2 | ⟨h2, w, pos, h3, h4⟩
              · exact Or.inl h2
              · exact Or.inr ⟨h2, w, pos, h3, by rw [List.length_append] at h4; omega⟩
            · rcases hspec.2.2.2.1 with h2 | h2
              · exact absurd h2 h1
              · omega
    · simp only [Option.some.injEq, Prod.mk.injEq] at h
      rw [← h.2]; exact Or.inl hb

theorem drop_append_take_drop (w : Bytes) (pos n : Nat) :
    (w.drop pos).take n ++ w.drop (pos + n) = w.drop pos := by
  rw [← List.drop_drop, List.take_append_drop]

/-- Reading a block keeps an empty buffer from lying around, and what was read can be pushed back. -/
theorem Conn.readsize_back (c c' : Conn) (n : Nat) (x : Bytes) (hok : c.Ok) (hnl : c.NoLazy) (hn : 0 < n)
    (h : c.readsize n = some (x, c')) :
    c'.NoLazy ∧ (c.rest ≠ [] → (c'.pushBack x).stream = c.stream ∧ (c'.pushBack x).Ok ∧
      (c'.pushBack x).rest ≠ []) := by
  have hspec := Conn.readsize_spec c hok n
  rw [h] at hspec
  obtain ⟨hx, hs, hle, hok'⟩ := hspec
  have hxl : x.length = n := by rw [hx, List.length_take]; omega
  have hxne : x ≠ [] := by intro h0; rw [h0] at hxl; simp at hxl; omega
  by_cases hr : c.rest = []
  · -- straight from the network
    have hb : c.buf = none := by
      rcases hnl with hb | hb
      · exact hb
      · exact absurd hr hb
    have := readsizeLoop_pos _ n [] c c' x hok hb (by simp) h
    refine ⟨?_, fun h0 => absurd hr h0⟩
    rcases this with h1 | ⟨h1, _⟩
    · exact Or.inl h1
    · exact Or.inr h1
  · obtain ⟨w, pos, hbuf⟩ : ∃ w pos, c.buf = some (w, pos) := by
      cases hb : c.buf with
      | none => simp [Conn.rest, hb] at hr
      | some y => exact ⟨y.1, y.2, rfl⟩
    have hrest : c.rest = w.drop pos := by simp [Conn.rest, hbuf]
    have hpw := hok.2 w pos hbuf
    have hback_else : ∀ (c2 : Conn), c2.stream = c.stream.drop n → c2.Ok →
        (c2.buf = none ∨ ∃ w pos, c2.buf = some (w, pos) ∧ pos < n) →
        (c2.pushBack x).stream = c.stream ∧ (c2.pushBack x).Ok ∧ (c2.pushBack x).rest ≠ [] := by
      intro c2 hs2 hok2 hb2
      have he : c2.pushBack x = { c2 with buf := some (x ++ c2.rest, 0) } := by
        rcases hb2 with hb2 | ⟨w2, p2, hb2, hp2⟩
        · simp [Conn.pushBack, hb2, Conn.rest]
        · simp only [Conn.pushBack, hb2, hxl]
          rw [if_neg (by omega)]
      rw [he]
      refine ⟨?_, ⟨hok2.1, ?_⟩, ?_⟩
      · have : ({ c2 with buf := some (x ++ c2.rest, 0) } : Conn).stream = x ++ c2.stream := by
          simp [Conn.stream, Conn.rest]
        rw [this, hs2, hx, List.take_append_drop]
      · intro w2 p2 hb2
        simp only [Option.some.injEq, Prod.mk.injEq] at hb2
        omega
      · simp [Conn.rest, hxne]
    have h' := h
    simp only [Conn.readsize] at h'
    rw [show c.net.length + 3 = (c.net.length + 2) + 1 from rfl, readsizeLoop] at h'
    rw [if_pos (by simpa using hn)] at h'
    simp only [List.length_nil, Nat.sub_zero, Conn.readForSize] at h'
    rw [if_pos hr] at h'
    by_cases hlt : n < c.rest.length
    · have hz : c.sizeFromBuf n = (c.rest.take n, { c with buf := some (w, pos + n) }) := by
        simp only [Conn.sizeFromBuf]
        rw [if_pos ⟨hn, hlt⟩, hbuf]
      rw [hz] at h'
      dsimp only at h'
      rw [if_pos ⟨trivial, by rw [List.length_take]; omega⟩] at h'
      simp only [Option.some.injEq, Prod.mk.injEq] at h'
      have hlen : c.rest.length = w.length - pos := by rw [hrest, List.length_drop]
      have hc' : c'.rest ≠ [] := by
        rw [← h'.2]
        simp only [Conn.rest]
        intro h0
        have := congrArg List.length h0
        simp at this
        omega
      refine ⟨Or.inr hc', fun _ => ?_⟩
      have hp : c'.pushBack x = c := by
        rw [← h'.2]
        simp only [Conn.pushBack, hxl]
        rw [if_pos (by omega)]
        cases c
        simp only [Conn.mk.injEq, and_true] at hbuf ⊢
        rw [hbuf]
        simp
      rw [hp]
      exact ⟨rfl, hok, hr⟩
    · have hz : c.sizeFromBuf n = (c.rest, { c with buf := none }) := by
        simp only [Conn.sizeFromBuf]
        rw [if_neg (by omega)]
      rw [hz] at h'
      dsimp only at h'
      by_cases heq : c.rest.length = n
      · rw [if_pos ⟨trivial, heq⟩] at h'
        simp only [Option.some.injEq, Prod.mk.injEq] at h'
        have hb' : c'.buf = none := by rw [← h'.2]
        exact ⟨Or.inl hb', fun _ => hback_else c' hs hok' (Or.inl hb')⟩
      · rw [if_neg (by simp [heq]), if_neg (by omega)] at h'
        have hrl := List.length_pos_iff.2 hr
        have := readsizeLoop_pos _ n ([] ++ c.rest) { c with buf := none } c' x (Conn.ok_clear hok) rfl
          (by simp; omega) h'
        simp only [List.nil_append] at this
        rcases this with h1 | ⟨h1, w2, p2, h2, h3⟩
        · exact ⟨Or.inl h1, fun _ => hback_else c' hs hok' (Or.inl h1)⟩
        · exact ⟨Or.inr h1, fun _ => hback_else c' hs hok' (Or.inr ⟨w2, p2, h2, by omega⟩)⟩

/-- Reading no bytes changes nothing. -/
theorem Conn.readsize_zero (c : Conn) : c.readsize 0 = some ([], c) := by
  simp only [Conn.readsize]
  rw [show c.net.length + 3 = (c.net.length + 2) + 1 from rfl, readsizeLoop_done (by simp)]

end Flare
