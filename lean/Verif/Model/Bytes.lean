/-!
Byte strings and fixed-width integers as they lie in memory.

`std::string` and `uint8_t*` buffers are modelled as `List UInt8`.
-/
namespace Flare

abbrev Bytes := List UInt8

/-- The `w` bytes of a `w`-byte unsigned integer, least significant first: the effect of
`memcpy(data+offset, &x, sizeof(x))` on a little-endian machine
(/repo/src/lib/storage.cc:260,264,268,272).  The byte order of the machine is a
simplification: the code uses the native order for both directions. -/
def leBytes : (w : Nat) → Nat → Bytes
  | 0, _ => []
  | w + 1, n => UInt8.ofNat (n % 256) :: leBytes w (n / 256)

/-- The inverse of `leBytes`: `memcpy(&x, data+offset, sizeof(x))`
(/repo/src/lib/storage.cc:286,294,302,310). -/
def leNat : Bytes → Nat
  | [] => 0
  | b :: bs => b.toNat + 256 * leNat bs

/-- The `w` bytes of an unsigned integer, most significant first (network order,
`htons/htonl/htonll`, /repo/src/lib/htonll.h:65-73). -/
def beBytes (w n : Nat) : Bytes := (leBytes w n).reverse

/-- Inverse of `beBytes` (`ntohs/ntohl/ntohll`). -/
def beNat (bs : Bytes) : Nat := leNat bs.reverse

end Flare
