/-
Model of utils.c and of checked access to caller supplied buffers.

Byte strings are `List UInt8`.  Undefined behaviour is the outcome `none` of an `Option`.
-/
namespace Xmss

/-- `unsigned char` arrays, e.g. utils.c:6, utils.c:21: the bytes of an object from its first to its last. -/
abbrev Bytes := List UInt8

/-- `ull_to_bytes(out, outlen, in)`, utils.c:6-16.  The C loop runs from the last byte to the first, storing
`in & 0xff` and shifting `in` right by 8; the recursion peels off the last byte first.
Simplification: `in` is a `Nat` (callers pass a 64-bit value). -/
def ullToBytes : Nat → Nat → Bytes
  | 0, _ => []
  | k + 1, x => ullToBytes k (x >>> 8) ++ [UInt8.ofNat (x &&& 0xff)]

/-- Loop of `bytes_to_ull`, utils.c:26-28: `retval |= in[i] << (8*(inlen - 1 - i))`;
`inlen - 1 - i` is the number of bytes after the current one. -/
def bytesToUllLoop : Bytes → Nat → Nat
  | [], r => r
  | b :: rest, r => bytesToUllLoop rest (r ||| (b.toNat <<< (8 * rest.length)))

/-- `bytes_to_ull(in, inlen)`, utils.c:21-30, on the `inlen` bytes `bs`.  For more than 8 bytes the first shift
amount is at least 64, undefined behaviour in C: `none`. -/
def bytesToUll (bs : Bytes) : Option Nat :=
  if 8 < bs.length then none else some (bytesToUllLoop bs 0)

/-- Read `len` bytes at offset `off` of a buffer; out of bounds is undefined behaviour.
(Models pointer reads / the source operand of memcpy throughout the C code, e.g. xmss_core.c:233.) -/
def rd (buf : Bytes) (off len : Nat) : Option Bytes :=
  if off + len ≤ buf.length then some ((buf.drop off).take len) else none

/-- Overwrite the bytes at offset `off` of a buffer with `bs`; out of bounds is undefined behaviour.
(Models pointer writes (e.g. xmss_core.c:233) / the destination operand of memcpy and memset throughout the C code.) -/
def wr (buf : Bytes) (off : Nat) (bs : Bytes) : Option Bytes :=
  if off + bs.length ≤ buf.length then some (buf.take off ++ bs ++ buf.drop (off + bs.length)) else none

end Xmss
