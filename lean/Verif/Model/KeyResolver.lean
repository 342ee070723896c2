import Verif.Model.Bytes

/-!
Model of the key hash (/repo/src/lib/storage.h:148-185) and of the partition table
(/repo/src/lib/key_resolver_modular.cc).
-/
namespace Flare

/-! ### Key hash -/

/-- `storage::hash_algorithm`, /repo/src/lib/storage.h:103-110. -/
inductive HashAlgorithm where
  | simple | bitshift | crc32 | adler32 | murmur | jenkins
  deriving DecidableEq, Repr

/-- `static_cast<int>(*p)` of a (signed) `char`. -/
def charToInt (c : UInt8) : Int32 := c.toInt8.toInt32

/-- The loop of `hash_algorithm_simple`, /repo/src/lib/storage.h:151-156, up to the first NUL byte.
Signed overflow (undefined in C++) wraps around here. -/
def hashSimple : Int32 → Bytes → Int32
  | r, [] => r
  | r, c :: cs => if c = 0 then r else hashSimple (r + charToInt c) cs

/-- The loop of `hash_algorithm_bitshift`, /repo/src/lib/storage.h:157-163, wrapping around. -/
def hashBitshift : Int32 → Bytes → Int32
  | r, [] => r
  | r, c :: cs =>
    if c = 0 then r else hashBitshift ((r <<< 5) + (r <<< 2) + r + charToInt c) cs

/-- `entry::get_key_hash_value`, /repo/src/lib/storage.h:148-185.  `ext` stands for the external
functions (zlib crc32 and adler32, libhashkit murmur and jenkins) applied to the key up to its first
NUL byte; their 32-bit results are converted to `int`. -/
def keyHash (ext : HashAlgorithm → Bytes → UInt32) (h : HashAlgorithm) (key : Bytes) : Int32 :=
  let r := match h with
    | .simple => hashSimple 0 key
    | .bitshift => hashBitshift 19790217 key
    | h => (ext h (key.takeWhile (· ≠ 0))).toInt32
  -- :182-184
  if r < 0 then r * (-1) else r

/-! ### Partition table -/

/-- One pass of the inner loop of `key_resolver_modular::startup` beyond the hint,
/repo/src/lib/key_resolver_modular.cc:86-92: `prev` is the rest of row `i-1`, `counter` the array of
that name. -/
def nextRow (i : Nat) (counter : Nat → Nat) : List Nat → List Nat
  | [] => []
  | k :: prev =>
    let counter := fun x => if x = k then counter k + 1 else counter x
    (if counter k % i = i - 1 then i - 1 else k) :: nextRow i counter prev

/-- Row `i` of the table, /repo/src/lib/key_resolver_modular.cc:72-95.  `none`: row 0 is a NULL
pointer, and with a hint below 1 row 1 is computed from it (undefined behaviour).  The ints of the C++
code are natural numbers here (the counters stay below the virtual size). -/
def row (hint virtual_ : Nat) : Nat → Option (List Nat)
  | 0 => none
  | i + 1 =>
    if i + 1 ≤ hint then some ((List.range virtual_).map (· % (i + 1)))
    else (row hint virtual_ i).map (nextRow (i + 1) (fun _ => 0))

/-- The configured resolver: table size, hint, virtual size. -/
structure Resolver where
  size : Nat
  hint : Nat
  virtual_ : Nat
  deriving DecidableEq, Repr

/-- `key_resolver_modular::resolve`, /repo/src/lib/key_resolver_modular.cc:105-108.  `none` is
undefined behaviour: a row outside the table, the NULL row, division by zero or a negative index
(`%` truncates towards zero). -/
def resolve (kr : Resolver) (h : Int) (n : Nat) : Option Nat :=
  if n < kr.size ∧ kr.virtual_ ≠ 0 ∧ 0 ≤ h.tmod kr.virtual_ then
    (row kr.hint kr.virtual_ n).bind fun r => r[(h.tmod kr.virtual_).toNat]?
  else none

end Flare
