import Verif.Model.Bytes
import Verif.Model.Params
import Verif.Model.Address
import Verif.Model.Keccak
/-
Model of hash.c.

`core_hash` selects a hash function from `params`; all functions that call it take the selected function `H`
as an argument (`none` from `coreHash` is the unsupported branch, after which the C callers use uninitialised memory).
-/
namespace Xmss

/-- OpenSSL's `SHA256` and `SHA512` (used in hash.c:32-50) are external: arbitrary functions with the right output
lengths. -/
structure Prims where
  sha256 : Bytes → Bytes
  sha512 : Bytes → Bytes
  sha256_length : ∀ x, (sha256 x).length = 32
  sha512_length : ∀ x, (sha512 x).length = 64

/-- `core_hash`, hash.c:25-57, as a function from the parameters to the hash that is computed; `none` is the
return value -1 (line 54). -/
def coreHash (P : Prims) (func : Func) (n : Nat) : Option (Bytes → Bytes) :=
  if n = 24 ∧ func = .sha2 then some (fun x => (P.sha256 x).take 24)
  else if n = 24 ∧ func = .shake256 then some (fun x => shake256 24 x)
  else if n = 32 ∧ func = .sha2 then some P.sha256
  else if n = 32 ∧ func = .shake128 then some (fun x => shake128 32 x)
  else if n = 32 ∧ func = .shake256 then some (fun x => shake256 32 x)
  else if n = 64 ∧ func = .sha2 then some P.sha512
  else if n = 64 ∧ func = .shake256 then some (fun x => shake256 64 x)
  else none

/-- `XMSS_HASH_PADDING_*`, hash.c:11-15. -/
def padF : Nat := 0
/-- hash.c:12 -/
def padH : Nat := 1
/-- hash.c:13 -/
def padHash : Nat := 2
/-- hash.c:14 -/
def padPrf : Nat := 3
/-- hash.c:15 -/
def padPrfKeygen : Nat := 4

/-- `addr_to_bytes`, hash.c:17-23. -/
def addrToBytes (a : Addr) : Bytes := (a.words.map (fun w => ullToBytes 4 w.toNat)).flatten

/-- The buffer hashed by `prf`, hash.c:66-70. -/
def prfInput (p : Params) (inp key : Bytes) : Bytes := ullToBytes p.padding_len padPrf ++ key ++ inp

/-- `prf`, hash.c:62-73. -/
def prf (H : Bytes → Bytes) (p : Params) (inp key : Bytes) : Bytes := H (prfInput p inp key)

/-- The buffer hashed by `prf_keygen`, hash.c:83-87. -/
def prfKeygenInput (p : Params) (inp key : Bytes) : Bytes := ullToBytes p.padding_len padPrfKeygen ++ key ++ inp

/-- `prf_keygen`, hash.c:79-90. -/
def prfKeygen (H : Bytes → Bytes) (p : Params) (inp key : Bytes) : Bytes := H (prfKeygenInput p inp key)

/-- `hash_message`, hash.c:99-112.  `buf` is the buffer into which `m_with_prefix` points, `off` the offset of
`m_with_prefix` in it.  Returns the digest and the buffer with the prefix written. -/
def hashMessage (H : Bytes → Bytes) (p : Params) (R root : Bytes) (idx : Nat) (buf : Bytes) (off mlen : Nat) :
    Option (Bytes × Bytes) := do
  let buf ← wr buf off (ullToBytes p.padding_len padHash)
  let buf ← wr buf (off + p.padding_len) R
  let buf ← wr buf (off + p.padding_len + p.n) root
  let buf ← wr buf (off + p.padding_len + 2 * p.n) (ullToBytes p.n idx)
  let inp ← rd buf off (mlen + p.padding_len + 3 * p.n)
  some (H inp, buf)

/-- Byte-wise xor of two buffers (loops hash.c:143-145 and 171-173). -/
def xorBytes (x y : Bytes) : Bytes := List.zipWith (· ^^^ ·) x y

/-- The buffer hashed by `thash_h` (hash.c:121-145), with the address as it is afterwards. -/
def thashHInput (H : Bytes → Bytes) (p : Params) (inp pubSeed : Bytes) (addr : Addr) : Bytes × Addr :=
  let addr := setKeyAndMask addr 0
  let key := prf H p (addrToBytes addr) pubSeed
  let addr := setKeyAndMask addr 1
  let mask0 := prf H p (addrToBytes addr) pubSeed
  let addr := setKeyAndMask addr 2
  let mask1 := prf H p (addrToBytes addr) pubSeed
  (ullToBytes p.padding_len padH ++ key ++ xorBytes inp (mask0 ++ mask1), addr)

/-- `thash_h`, hash.c:117-147.  The C function changes `addr[7]`; the new address is returned. -/
def thashH (H : Bytes → Bytes) (p : Params) (inp pubSeed : Bytes) (addr : Addr) : Bytes × Addr :=
  let r := thashHInput H p inp pubSeed addr
  (H r.1, r.2)

/-- The buffer hashed by `thash_f` (hash.c:153-173), with the address as it is afterwards. -/
def thashFInput (H : Bytes → Bytes) (p : Params) (inp pubSeed : Bytes) (addr : Addr) : Bytes × Addr :=
  let addr := setKeyAndMask addr 0
  let key := prf H p (addrToBytes addr) pubSeed
  let addr := setKeyAndMask addr 1
  let mask := prf H p (addrToBytes addr) pubSeed
  (ullToBytes p.padding_len padF ++ key ++ xorBytes inp mask, addr)

/-- `thash_f`, hash.c:149-175.  Returns the output and the changed address. -/
def thashF (H : Bytes → Bytes) (p : Params) (inp pubSeed : Bytes) (addr : Addr) : Bytes × Addr :=
  let r := thashFInput H p inp pubSeed addr
  (H r.1, r.2)

end Xmss
