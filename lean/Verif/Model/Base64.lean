import Verif.Model.Bytes

/-!
The base64 functions used for extended attributes of flarefs, /repo/src/lib/util.cc:182-295.

Simplifications: `std::string` and `new char[]` never run out of memory, and the source is shorter than
2^31 bytes (`int src_size`, :249).  A negative entry of the decoding table becomes the unsigned byte it is
stored as in `uint8_t buf_text[]`.
-/
namespace Flare

/-- `base64_map` of the encoder, /repo/src/lib/util.cc:183. -/
def b64Alphabet : Bytes :=
  [65, 66, 67, 68, 69, 70, 71, 72, 73, 74, 75, 76, 77, 78, 79, 80, 81, 82, 83, 84, 85, 86, 87, 88, 89, 90,
   97, 98, 99, 100, 101, 102, 103, 104, 105, 106, 107, 108, 109, 110, 111, 112, 113, 114, 115, 116, 117,
   118, 119, 120, 121, 122, 48, 49, 50, 51, 52, 53, 54, 55, 56, 57, 43, 47]

/-- `base64_map[t]` of the encoder; index 64 is the terminating NUL of the literal, beyond is out of
bounds and shown as `none`. -/
def b64Char (t : UInt8) : Option UInt8 :=
  if t = 64 then some 0 else b64Alphabet[t.toNat]?

/-- `base64_map[c]` of the decoder, /repo/src/lib/util.cc:228-245, as a `uint8_t`: -2 is 254, -1 is 255. -/
def b64Map (c : UInt8) : UInt8 :=
  if c = 9 ∨ c = 10 ∨ c = 13 ∨ c = 32 then 255
  else if c = 43 then 62
  else if c = 47 then 63
  else if 48 ≤ c ∧ c ≤ 57 then c - 48 + 52
  else if 65 ≤ c ∧ c ≤ 90 then c - 65
  else if 97 ≤ c ∧ c ≤ 122 then c - 97 + 26
  else 254

/-- `buf_text` from `buf_binary`, /repo/src/lib/util.cc:193-196 and :209-212. -/
def b64Text (b0 b1 b2 : UInt8) : Bytes :=
  [(b0 &&& 0xfc) >>> 2,
   ((b0 &&& 0x03) <<< 4) + ((b1 &&& 0xf0) >>> 4),
   ((b1 &&& 0x0f) <<< 2) + ((b2 &&& 0xc0) >>> 6),
   b2 &&& 0x3f]

/-- `buf_binary` from the translated `buf_text`, /repo/src/lib/util.cc:265-267 and :284-286. -/
def b64Binary (t0 t1 t2 t3 : UInt8) : Bytes :=
  [(t0 <<< 2) + ((t1 &&& 0x30) >>> 4),
   ((t1 &&& 0xf) <<< 4) + ((t2 &&& 0x3c) >>> 2),
   ((t2 &&& 0x3) <<< 6) + t3]

/-- The rest after the loop of `base64_encode`, /repo/src/lib/util.cc:205-222; `pend` is
`buf_binary[0..i-1]`. -/
def b64EncodeTail (pend : Bytes) : Option Bytes :=
  if pend = [] then some []
  else do
    let text := b64Text (pend.getD 0 0) (pend.getD 1 0) (pend.getD 2 0)
    let cs ← (text.take (pend.length + 1)).mapM b64Char
    pure (cs ++ List.replicate (3 - pend.length) 61)

/-- The loop of `base64_encode`, /repo/src/lib/util.cc:190-222; `none` is an access outside the map. -/
def b64EncodeLoop (pend : Bytes) : Bytes → Option Bytes
  | [] => b64EncodeTail pend
  | c :: src =>
    let pend := pend ++ [c]
    if pend.length = 3 then do
      let cs ← (b64Text (pend.getD 0 0) (pend.getD 1 0) (pend.getD 2 0)).mapM b64Char
      let r ← b64EncodeLoop [] src
      pure (cs ++ r)
    else b64EncodeLoop pend src

/-- `base64_encode`, /repo/src/lib/util.cc:182-225. -/
def b64Encode (src : Bytes) : Option Bytes := b64EncodeLoop [] src

/-- The rest after the loop of `base64_decode`, /repo/src/lib/util.cc:275-291. -/
def b64DecodeTail (pend : Bytes) : Bytes :=
  if pend = [] then []
  else
    (b64Binary (b64Map (pend.getD 0 0)) (b64Map (pend.getD 1 0)) (b64Map (pend.getD 2 0))
      (b64Map (pend.getD 3 0))).take (pend.length - 1)

/-- The loop of `base64_decode`, /repo/src/lib/util.cc:258-291: it ends at the end or at the first '='. -/
def b64DecodeLoop (pend : Bytes) : Bytes → Bytes
  | [] => b64DecodeTail pend
  | c :: src =>
    if c = 61 then b64DecodeTail pend
    else
      let pend := pend ++ [c]
      if pend.length = 4 then
        b64Binary (b64Map (pend.getD 0 0)) (b64Map (pend.getD 1 0)) (b64Map (pend.getD 2 0))
          (b64Map (pend.getD 3 0)) ++ b64DecodeLoop [] src
      else b64DecodeLoop pend src

/-- `base64_decode`, /repo/src/lib/util.cc:227-295: the first `dst_size` bytes of the result. -/
def b64Decode (src : Bytes) : Bytes := b64DecodeLoop [] src

end Flare
