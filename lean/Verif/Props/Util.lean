import Verif.Model.TimeUtil
import Verif.Lemmas.Base64

namespace Flare

/-! ### C46: time arithmetic -/

/-- The instant a `timespec` stands for, in nanoseconds. -/
def Timespec.nanos (t : Timespec) : Int := t.sec * 1000000000 + t.nsec

/-- `0 ≤ tv_nsec < 10^9`. -/
def Timespec.Normal (t : Timespec) : Prop := 0 ≤ t.nsec ∧ t.nsec < 1000000000

/-- Addition and subtraction of normalised times are exact and normalised. -/
theorem C46_add_sub (a b : Timespec) (ha : a.Normal) (hb : b.Normal) :
    (a.add b).Normal ∧ (a.add b).nanos = a.nanos + b.nanos ∧
    (a.sub b).Normal ∧ (a.sub b).nanos = a.nanos - b.nanos := by
  obtain ⟨h1, h2⟩ := ha
  obtain ⟨h3, h4⟩ := hb
  have e1 : a.add b = if a.nsec + b.nsec ≥ 1000000000
      then ⟨a.sec + b.sec + 1, a.nsec + b.nsec - 1000000000⟩ else ⟨a.sec + b.sec, a.nsec + b.nsec⟩ := rfl
  have e2 : a.sub b = if a.nsec - b.nsec < 0
      then ⟨a.sec - b.sec - 1, a.nsec - b.nsec + 1000000000⟩ else ⟨a.sec - b.sec, a.nsec - b.nsec⟩ := rfl
  rw [e1, e2]
  by_cases c1 : a.nsec + b.nsec ≥ 1000000000 <;> by_cases c2 : a.nsec - b.nsec < 0 <;>
    simp only [c1, c2, if_true, if_false, Timespec.Normal, Timespec.nanos] <;> omega

theorem Timespec.ext_nanos {a b : Timespec} (ha : a.Normal) (hb : b.Normal) (h : a.nanos = b.nanos) :
    a = b := by
  obtain ⟨s, n⟩ := a
  obtain ⟨s', n'⟩ := b
  simp only [Timespec.Normal, Timespec.nanos, Timespec.mk.injEq] at *
  omega

/-- Normalised times are equal when they stand for the same instant, so `(a + b) - b` is `a`. -/
theorem C46_add_sub_cancel (a b : Timespec) (ha : a.Normal) (hb : b.Normal) :
    (a.add b).sub b = a ∧ (a.sub b).add b = a := by
  have h := C46_add_sub a b ha hb
  have h1 := C46_add_sub _ b h.1 hb
  have h2 := C46_add_sub _ b h.2.2.1 hb
  exact ⟨Timespec.ext_nanos h1.2.2.1 ha (by omega), Timespec.ext_nanos h2.1 ha (by omega)⟩

/-- `is_bigger` is the order of the instants. -/
theorem C46_is_bigger (a b : Timespec) (ha : a.Normal) (hb : b.Normal) :
    isBigger a b = true ↔ b.nanos < a.nanos := by
  obtain ⟨h1, h2⟩ := ha
  obtain ⟨h3, h4⟩ := hb
  simp only [isBigger, Timespec.nanos]
  split <;> simp only [decide_eq_true_eq, gt_iff_lt] <;> omega

/-- Milliseconds and microseconds are converted exactly. -/
theorem C46_conversions (msec : UInt32) (sec usec : Int) (h : 0 ≤ usec ∧ usec < 1000000) :
    (msecToTimespec msec).Normal ∧ (msecToTimespec msec).nanos = msec.toNat * 1000000 ∧
    (timevalToTimespec sec usec).Normal ∧
    (timevalToTimespec sec usec).nanos = (sec * 1000000 + usec) * 1000 := by
  have h1 : (msec / 1000).toNat = msec.toNat / 1000 := by simp
  simp only [msecToTimespec, timevalToTimespec, Timespec.Normal, Timespec.nanos, h1]
  refine ⟨?_, ?_, ?_, ?_⟩ <;> omega

/-- A storage access that runs for at most the warning threshold is left alone; beyond it there is a
warning, and beyond the second threshold (if it is not smaller than the first) the storage is reported as
broken: exactly by the elapsed nanoseconds. -/
theorem C46_observe (now timestamp : Timespec) (warn ng : UInt32) (hn : now.Normal) (ht : timestamp.Normal) :
    let elapsed := now.nanos - timestamp.nanos
    observe now timestamp warn ng =
      if elapsed ≤ warn.toNat * 1000000 then .quiet
      else if elapsed ≤ ng.toNat * 1000000 then .warn else .storageError := by
  have hs := C46_add_sub now timestamp hn ht
  have hw := C46_conversions warn 0 0 (by omega)
  have hg := C46_conversions ng 0 0 (by omega)
  have b1 := C46_is_bigger _ _ hs.2.2.1 hw.1
  have b2 := C46_is_bigger _ _ hs.2.2.1 hg.1
  rw [hs.2.2.2, hw.2.1] at b1
  rw [hs.2.2.2, hg.2.1] at b2
  simp only [observe, checkTimestamp]
  by_cases c1 : now.nanos - timestamp.nanos ≤ (warn.toNat : Int) * 1000000
  · rw [if_pos c1, if_neg (by rw [b1]; omega)]
  · rw [if_neg c1, if_pos (b1.2 (by omega))]
    by_cases c2 : now.nanos - timestamp.nanos ≤ (ng.toNat : Int) * 1000000
    · rw [if_pos c2]; dsimp only; rw [if_neg (by rw [b2]; omega)]
    · rw [if_neg c2]; dsimp only; rw [if_pos (b2.2 (by omega))]

/-- 2.5 s after 0.7 s is 3.2 s; at that time an access begun at 0.7 s is late for a warning after 2 s, but
not broken with a limit of 2.5 s. -/
example :
    (⟨2, 500000000⟩ : Timespec).add ⟨0, 700000000⟩ = ⟨3, 200000000⟩ ∧
    observe ⟨3, 200000000⟩ ⟨0, 700000000⟩ 2000 2500 = .warn ∧
    observe ⟨3, 200000001⟩ ⟨0, 700000000⟩ 2000 2500 = .storageError := by decide +kernel

/-! ### C41: base64 -/

/-- Decoding an encoded byte string gives the string back; encoding never reads outside its table. -/
theorem C41_round_trip (src : Bytes) : ∃ t, b64Encode src = some t ∧ b64Decode t = src :=
  ⟨_, b64Encode_groups src, b64Decode_groups src⟩

/-- The alphabet of the standard: A to Z, a to z, 0 to 9, '+', '/'. -/
def stdAlphabet : Bytes :=
  ((List.range 26).map (65 + ·) ++ (List.range 26).map (97 + ·) ++ (List.range 10).map (48 + ·) ++
    [43, 47]).map UInt8.ofNat

/-- The encoding is the standard one: digits of the alphabet, whose number is the number of the bytes
shifted by two bits per padding character, and padding to a multiple of four characters. -/
theorem C41_standard (src : Bytes) :
    ∃ ds, b64Encode src = some (ds ++ List.replicate ((3 - src.length % 3) % 3) 61) ∧
      (∀ c ∈ ds, c ∈ stdAlphabet) ∧
      ds.foldl (fun n c => n * 64 + stdAlphabet.idxOf c) 0 =
        src.foldl (fun n c => n * 256 + c.toNat) 0 * 4 ^ ((3 - src.length % 3) % 3) ∧
      ds.length + (3 - src.length % 3) % 3 = 4 * ((src.length + 2) / 3) := by
  have h := b64Groups_digits src
  rw [show stdAlphabet = b64Alphabet by decide]
  refine ⟨b64Digits src, ?_, b64Digits_mem src, b64Digits_number src 0, ?_⟩
  · rw [b64Encode_groups, h]; rfl
  · have := b64Groups_length src
    rw [h] at this
    simpa [b64Pad] using this

/-- Decoding any text writes fewer bytes than its buffer of `src_size` bytes has, at most three for four
characters. -/
theorem C41_decode_fits (src : Bytes) : 4 * (b64Decode src).length ≤ 3 * src.length := by
  simpa [b64Decode] using b64DecodeLoop_length src [] (by simp)

/-- A byte that is not of the alphabet is not refused, it is taken for a number: 255 for blanks and line ends, 254 for others. -/
theorem C41_foreign (c : UInt8) (hc : c ∉ stdAlphabet) (h : c ≠ 61) :
    b64Decode [65, 65, 65, c] = [0, 0, if c ∈ ([9, 10, 13, 32] : Bytes) then 255 else 254] := by
  revert hc h
  revert c
  apply all256
  decide +kernel

/-- "flare!!" -/
example :
    b64Encode [102, 108, 97, 114, 101, 33, 33] =
      some [90, 109, 120, 104, 99, 109, 85, 104, 73, 81, 61, 61] ∧
    b64Decode [90, 109, 120, 104, 99, 109, 85, 104, 73, 81, 61, 61] = [102, 108, 97, 114, 101, 33, 33] := by
  decide +kernel

end Flare
