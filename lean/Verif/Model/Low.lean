import Verif.Model.Api
/-
A second, lower model of the simple implementation: utils.c, fips202.c, hash.c, wots.c, xmss_commons.c, xmss_core.c and xmss.c on
an explicit memory with C integers.

* Memory is a list of objects (caller buffers first, then the local arrays of the active calls); an object is a list of
  bytes, each initialised or not.  A pointer is an object and an offset.  Local arrays are created uninitialised when a
  function is entered and removed when it returns.
* Undefined behaviour is `none`.  It is: an access outside an object, reading an uninitialised byte, `memcpy` between
  different overlapping ranges, a local array of size 0, an over-wide shift, a signed left shift that does not fit, and
  running out of the iterations provided for a `while` loop (so termination is part of what is proved).
* `unsigned int`/`uint32_t` arithmetic is reduced modulo 2^32 (`w32`), `unsigned long (long)` modulo 2^64 (`w64`), where
  the C code does it.
* Addresses (`uint32_t addr[8]`) are values handed from call to call, as in the first model (`Xmss.Addr`).
-/
namespace Xmss.Low

/-- One byte of an object: its value, or `none` if it was never written (e.g. the elements of `buf` at hash.c:66). -/
abbrev Cell := Option UInt8
/-- An object: a buffer of the caller or a local array, e.g. hash.c:66. -/
abbrev Block := List Cell
/-- All objects that exist at some moment, e.g. while `prf` (hash.c:62-73) runs. -/
abbrev Mem := List Block

/-- `unsigned char *`, e.g. hash.c:63: an object and an offset in it. -/
structure Ptr where
  blk : Nat
  off : Nat
deriving DecidableEq, Repr

/-- `p + k`, e.g. hash.c:69.  (Simplification: only accesses are checked, not the computation of a pointer.) -/
instance : HAdd Ptr Nat Ptr := ⟨fun q k => ⟨q.blk, q.off + k⟩⟩

/-- `p - k`, xmss_core.c:247, xmss_commons.c:170; `none` below the start of the object. -/
def Ptr.sub (q : Ptr) (k : Nat) : Option Ptr := if k ≤ q.off then some ⟨q.blk, q.off - k⟩ else none

/-- The values of consecutive bytes (read e.g. by `memcpy`, hash.c:69); `none` if one is not initialised. -/
def cells : Block → Option Bytes
  | [] => some []
  | none :: _ => none
  | some x :: rest => (cells rest).map (x :: ·)

/-- Reading `len` bytes of an object (e.g. hash.c:69). -/
def Block.read (b : Block) (off len : Nat) : Option Bytes :=
  if off + len ≤ b.length then cells ((b.drop off).take len) else none

/-- Writing to an object (e.g. hash.c:69). -/
def Block.write (b : Block) (off : Nat) (x : Bytes) : Option Block :=
  if off + x.length ≤ b.length then some (b.take off ++ x.map some ++ b.drop (off + x.length)) else none

/-- Reading `len` bytes at a pointer, e.g. the source of `memcpy` at hash.c:69. -/
def load (m : Mem) (q : Ptr) (len : Nat) : Option Bytes := do
  let b ← m[q.blk]?
  b.read q.off len

/-- Writing bytes at a pointer, e.g. the destination of `memcpy` at hash.c:69. -/
def store (m : Mem) (q : Ptr) (x : Bytes) : Option Mem := do
  let b ← m[q.blk]?
  let b' ← b.write q.off x
  some (m.set q.blk b')

/-- Entry of a function with a local array of `len` bytes, e.g. hash.c:66; a size of 0 is undefined. -/
def alloc (m : Mem) (len : Nat) : Option (Ptr × Mem) :=
  if len = 0 then none else some (⟨m.length, 0⟩, m ++ [List.replicate len none])

/-- Return from a function: the local arrays created since `m0` disappear (e.g. hash.c:72-73). -/
def release (m0 m : Mem) : Mem := m.take m0.length

/-- `memcpy`, e.g. hash.c:69.  Overlapping ranges are undefined, except (tolerated by every implementation) source and
destination being the same: `gen_chain` is called with `out == in` (wots.c:128, 151). -/
def memcpy (m : Mem) (dst src : Ptr) (len : Nat) : Option Mem :=
  if dst.blk = src.blk ∧ dst.off ≠ src.off ∧ dst.off < src.off + len ∧ src.off < dst.off + len then none
  else do
    let x ← load m src len
    store m dst x

/-- Conversion to `unsigned int` / `uint32_t`; wrap-around of unsigned arithmetic, e.g. wots.c:27. -/
def w32 (x : Nat) : Nat := x % 2 ^ 32
/-- Conversion to `unsigned long long`, e.g. hash.c:111. -/
def w64 (x : Nat) : Nat := x % 2 ^ 64
/-- `unsigned` subtraction, e.g. wots.c:91. -/
def usub (a b : Nat) : Nat := (a + (2 ^ 32 - b % 2 ^ 32)) % 2 ^ 32
/-- Conversion of `unsigned` to `int`, e.g. utils.c:12 (implementation defined above 2^31: two's complement). -/
def asInt (u : Nat) : Int := if u % 2 ^ 32 < 2 ^ 31 then (u % 2 ^ 32 : Nat) else ((u % 2 ^ 32 : Nat) : Int) - 2 ^ 32
/-- Conversion of `int` to `unsigned`, e.g. wots.c:75. -/
def ofInt (z : Int) : Nat := (z % 2 ^ 32).toNat
/-- Conversion of `int` to `unsigned long long`, wots.c:97. -/
def ofInt64 (z : Int) : Nat := (z % 2 ^ 64).toNat

/-! ### utils.c -/

/-- The loop of `ull_to_bytes`, utils.c:12-15; `k` is `i + 1`. -/
def ullLoop (out : Ptr) : Nat → Nat → Mem → Option Mem
  | 0, _, m => some m
  | k + 1, x, m => do
    let m ← store m (out + k) [UInt8.ofNat (x &&& 0xff)]
    ullLoop out k (x >>> 8) m

/-- `ull_to_bytes`, utils.c:6-16.  `i = outlen - 1` is computed in `unsigned` and converted to `int`. -/
def ullToBytes (m : Mem) (out : Ptr) (outlen x : Nat) : Option Mem :=
  ullLoop out (asInt (usub outlen 1) + 1).toNat (w64 x) m

/-- The loop of `bytes_to_ull`, utils.c:26-28, with the counter `i`; the shift amount is an `unsigned`. -/
def bytesToUllLoop (m : Mem) (inp : Ptr) (inlen : Nat) : Nat → Nat → Nat → Option Nat
  | 0, _, r => some r
  | k + 1, i, r => do
    let x ← load m (inp + i) 1
    let s := w32 (8 * usub (usub inlen 1) i)
    if 64 ≤ s then none
    else bytesToUllLoop m inp inlen k (i + 1) (r ||| w64 ((x.headD 0).toNat <<< s))

/-- `bytes_to_ull`, utils.c:21-30. -/
def bytesToUll (m : Mem) (inp : Ptr) (inlen : Nat) : Option Nat := bytesToUllLoop m inp inlen inlen 0 0

/-! ### fips202.c -/

/-- `uint64_t s[25]`, fips202.c:377: the lanes that have been written. -/
abbrev LaneArr := List (Option Lane)

/-- Reading `s[i]`, fips202.c:338, 365. -/
def lget (s : LaneArr) (i : Nat) : Option Lane := (s[i]?).join

/-- Writing `s[i]`, fips202.c:338, 381. -/
def lset (s : LaneArr) (i : Nat) (v : Lane) : Option LaneArr := if i < s.length then some (s.set i (some v)) else none

/-- Loop of `load64`, fips202.c:21-23: `k` bytes remain, the next is `i`. -/
def load64Loop (m : Mem) (x : Ptr) : Nat → Nat → Lane → Option Lane
  | 0, _, r => some r
  | k + 1, i, r => do
    let b ← load m (x + i) 1
    load64Loop m x k (i + 1) (r ||| (BitVec.ofNat 64 (b.headD 0).toNat <<< (8 * i)))

/-- `load64`, fips202.c:17-25. -/
def load64 (m : Mem) (x : Ptr) : Option Lane := load64Loop m x 8 0 0

/-- Loop of `store64`, fips202.c:31-34: `k` bytes remain, the next is `i`. -/
def store64Loop (x : Ptr) : Nat → Nat → Lane → Mem → Option Mem
  | 0, _, _, m => some m
  | k + 1, i, u, m => do
    let m ← store m (x + i) [UInt8.ofNat u.toNat]
    store64Loop x k (i + 1) (u >>> 8) m

/-- `store64`, fips202.c:27-35. -/
def store64 (m : Mem) (x : Ptr) (u : Lane) : Option Mem := store64Loop x 8 0 u m

/-- copyFromState reads the 25 lanes (fips202.c:82-107): all of them have to be initialised. -/
def readLanes : LaneArr → Option (List Lane)
  | [] => some []
  | none :: _ => none
  | some x :: rest => (readLanes rest).map (x :: ·)

/-- `KeccakF1600_StatePermute`, fips202.c:65-327, on an array of 25 lanes; what it computes is the first model's. -/
def permute (s : LaneArr) : Option LaneArr :=
  if s.length = 25 then (readLanes s).map fun l => (keccakPermute l).map some else none

/-- `for (i = 0; i < r / 8; ++i) s[i] ^= load64(m + 8 * i)`, fips202.c:337-339, 353-355: `k` lanes remain, the next is `i`. -/
def xorBlock (m : Mem) (q : Ptr) : Nat → Nat → LaneArr → Option LaneArr
  | 0, _, s => some s
  | k + 1, i, s => do
    let v ← load64 m (q + 8 * i)
    let x ← lget s i
    let s ← lset s i (x ^^^ v)
    xorBlock m q k (i + 1) s

/-- `while (mlen >= r)`, fips202.c:336-343; `fuel` is more than `mlen`; returns `s`, `m` and `mlen`. -/
def absorbLoop (m : Mem) (r : Nat) : Nat → LaneArr → Ptr → Nat → Option (LaneArr × Ptr × Nat)
  | 0, _, _, _ => none
  | fuel + 1, s, q, mlen =>
    if r ≤ mlen then do
      let s ← xorBlock m q (r / 8) 0 s
      let s ← permute s
      absorbLoop m r fuel s (q + r) (mlen - r)
    else some (s, q, mlen)

/-- `t[i] = 0`, fips202.c:345-347: `k` bytes remain, the next is `i`. -/
def zeroLoop (t : Ptr) : Nat → Nat → Mem → Option Mem
  | 0, _, m => some m
  | k + 1, i, m => do
    let m ← store m (t + i) [0]
    zeroLoop t k (i + 1) m

/-- `t[i] = m[i]`, fips202.c:348-350, and `out[i] = d[i]`, 390-392, 413-415: `k` bytes remain, the next is `i`. -/
def copyLoop (dst src : Ptr) : Nat → Nat → Mem → Option Mem
  | 0, _, m => some m
  | k + 1, i, m => do
    let x ← load m (src + i) 1
    let m ← store m (dst + i) x
    copyLoop dst src k (i + 1) m

/-- `keccak_absorb`, fips202.c:329-356; returns `s` and the memory. -/
def keccakAbsorb (m0 : Mem) (s : LaneArr) (r : Nat) (q : Ptr) (mlen : Nat) (pad : UInt8) : Option (LaneArr × Mem) := do
  let (t, m) ← alloc m0 200
  let a ← absorbLoop m r (mlen + 1) s q mlen
  let m ← zeroLoop t r 0 m
  let m ← copyLoop t a.2.1 a.2.2 0 m
  let m ← store m (t + a.2.2) [pad]
  let x ← load m (t + (r - 1)) 1
  let m ← store m (t + (r - 1)) [x.headD 0 ||| 128]
  let s ← xorBlock m t (r / 8) 0 a.1
  some (s, release m0 m)

/-- The inner loop of `keccak_squeezeblocks`, fips202.c:364-366: `k` lanes remain, the next is `i`. -/
def storeLanes (h : Ptr) (s : LaneArr) : Nat → Nat → Mem → Option Mem
  | 0, _, m => some m
  | k + 1, i, m => do
    let v ← lget s i
    let m ← store64 m (h + 8 * i) v
    storeLanes h s k (i + 1) m

/-- `keccak_squeezeblocks`, fips202.c:358-371: `k` blocks remain. -/
def squeezeBlocks (r : Nat) : Nat → Ptr → LaneArr → Mem → Option (LaneArr × Mem)
  | 0, _, s, m => some (s, m)
  | k + 1, h, s, m => do
    let s ← permute s
    let m ← storeLanes h s (r >>> 3) 0 m
    squeezeBlocks r k (h + r) s m

/-- `s[i] = 0`, fips202.c:380-382, 403-405: `k` lanes remain, the next is `i`. -/
def clearLanes : Nat → Nat → LaneArr → Option LaneArr
  | 0, _, s => some s
  | k + 1, i, s => do
    let s ← lset s i 0
    clearLanes k (i + 1) s

/-- The body of `shake128` (fips202.c:373-394) and of `shake256` (396-417), which differ only in the rate. -/
def shake (r : Nat) (m0 : Mem) (out : Ptr) (outlen : Nat) (inp : Ptr) (inlen : Nat) : Option Mem := do
  let (d, m) ← alloc m0 r
  let s ← clearLanes 25 0 (List.replicate 25 none)
  let a ← keccakAbsorb m s r inp inlen 0x1F
  let b ← squeezeBlocks r (outlen / r) out a.1 a.2
  let out : Ptr := out + outlen / r * r
  let m ← (if outlen % r ≠ 0 then do
      let c ← squeezeBlocks r 1 d b.1 b.2
      copyLoop out d (outlen % r) 0 c.2
    else some b.2 : Option Mem)
  some (release m0 m)

/-- `shake128`, fips202.c:373-394; `SHAKE128_RATE` fips202.h:4. -/
def shake128 (m : Mem) (out : Ptr) (outlen : Nat) (inp : Ptr) (inlen : Nat) : Option Mem := shake 168 m out outlen inp inlen

/-- `shake256`, fips202.c:396-417; `SHAKE256_RATE` fips202.h:5. -/
def shake256 (m : Mem) (out : Ptr) (outlen : Nat) (inp : Ptr) (inlen : Nat) : Option Mem := shake 136 m out outlen inp inlen

/-! ### hash.c -/

/-- `addr_to_bytes`, hash.c:17-23: the loop, with the words not yet written and `i`. -/
def addrToBytesLoop (bytes : Ptr) : List UInt32 → Nat → Mem → Option Mem
  | [], _, m => some m
  | w :: ws, i, m => do
    let m ← ullToBytes m (bytes + i * 4) 4 w.toNat
    addrToBytesLoop bytes ws (i + 1) m

/-- `addr_to_bytes`, hash.c:17-23. -/
def addrToBytes (m : Mem) (bytes : Ptr) (a : Addr) : Option Mem := addrToBytesLoop bytes a.words 0 m

/-- `SHA256(in, inlen, md)` and `SHA512` of OpenSSL (hash.c:32, 39, 48; not part of the repository): read all of `in`, then write the
digest `f in`. -/
def shaExt (f : Bytes → Bytes) (m : Mem) (md inp : Ptr) (inlen : Nat) : Option Mem := do
  let x ← load m inp inlen
  store m md (f x)

/-- `core_hash`, hash.c:25-57.  For parameters without a hash function it returns -1 (line 54) without writing; its callers ignore
that (hash.c:129-146). -/
def coreHash (P : Prims) (p : Params) (m : Mem) (out inp : Ptr) (inlen : Nat) : Option Mem := do
  let (buf, m1) ← alloc m 64
  let m1 ← (if p.n = 24 ∧ p.func = .sha2 then do
      let m1 ← shaExt P.sha256 m1 buf inp inlen
      memcpy m1 out buf 24
    else if p.n = 24 ∧ p.func = .shake256 then shake256 m1 out 24 inp inlen
    else if p.n = 32 ∧ p.func = .sha2 then shaExt P.sha256 m1 out inp inlen
    else if p.n = 32 ∧ p.func = .shake128 then shake128 m1 out 32 inp inlen
    else if p.n = 32 ∧ p.func = .shake256 then shake256 m1 out 32 inp inlen
    else if p.n = 64 ∧ p.func = .sha2 then shaExt P.sha512 m1 out inp inlen
    else if p.n = 64 ∧ p.func = .shake256 then shake256 m1 out 64 inp inlen
    else some m1 : Option Mem)
  some (release m m1)

/-- `prf`, hash.c:62-73. -/
def prf (P : Prims) (p : Params) (m : Mem) (out inp key : Ptr) : Option Mem := do
  let (buf, m1) ← alloc m (w32 (p.padding_len + p.n + 32))
  let m1 ← ullToBytes m1 buf p.padding_len padPrf
  let m1 ← memcpy m1 (buf + p.padding_len) key p.n
  let m1 ← memcpy m1 (buf + p.padding_len + p.n) inp 32
  let m1 ← coreHash P p m1 out buf (w32 (p.padding_len + p.n + 32))
  some (release m m1)

/-- `prf_keygen`, hash.c:79-90. -/
def prfKeygen (P : Prims) (p : Params) (m : Mem) (out inp key : Ptr) : Option Mem := do
  let (buf, m1) ← alloc m (w32 (p.padding_len + w32 (2 * p.n) + 32))
  let m1 ← ullToBytes m1 buf p.padding_len padPrfKeygen
  let m1 ← memcpy m1 (buf + p.padding_len) key p.n
  let m1 ← memcpy m1 (buf + p.padding_len + p.n) inp (w32 (p.n + 32))
  let m1 ← coreHash P p m1 out buf (w32 (p.padding_len + w32 (2 * p.n) + 32))
  some (release m m1)

/-- `hash_message`, hash.c:99-112. -/
def hashMessage (P : Prims) (p : Params) (m : Mem) (out R root : Ptr) (idx : Nat) (mp : Ptr) (mlen : Nat) :
    Option Mem := do
  let m ← ullToBytes m mp p.padding_len padHash
  let m ← memcpy m (mp + p.padding_len) R p.n
  let m ← memcpy m (mp + p.padding_len + p.n) root p.n
  let m ← ullToBytes m (mp + p.padding_len + w32 (2 * p.n)) p.n idx
  coreHash P p m out mp (w64 (mlen + p.padding_len + w32 (3 * p.n)))

/-- The loops hash.c:143-145 and 171-173: `k` bytes remain, the next is `i`. -/
def xorLoop (p : Params) (buf inp mask : Ptr) : Nat → Nat → Mem → Option Mem
  | 0, _, m => some m
  | k + 1, i, m => do
    let x ← load m (inp + i) 1
    let y ← load m (mask + i) 1
    let m ← store m (buf + w32 (p.padding_len + p.n + i)) [x.headD 0 ^^^ y.headD 0]
    xorLoop p buf inp mask k (i + 1) m

/-- `thash_h`, hash.c:117-147. -/
def thashH (P : Prims) (p : Params) (m : Mem) (out inp pubSeed : Ptr) (addr : Addr) : Option (Mem × Addr) := do
  let (buf, m1) ← alloc m (w32 (p.padding_len + w32 (3 * p.n)))
  let (bitmask, m1) ← alloc m1 (w32 (2 * p.n))
  let (ab, m1) ← alloc m1 32
  let m1 ← ullToBytes m1 buf p.padding_len padH
  let addr := setKeyAndMask addr 0
  let m1 ← addrToBytes m1 ab addr
  let m1 ← prf P p m1 (buf + p.padding_len) ab pubSeed
  let addr := setKeyAndMask addr 1
  let m1 ← addrToBytes m1 ab addr
  let m1 ← prf P p m1 bitmask ab pubSeed
  let addr := setKeyAndMask addr 2
  let m1 ← addrToBytes m1 ab addr
  let m1 ← prf P p m1 (bitmask + p.n) ab pubSeed
  let m1 ← xorLoop p buf inp bitmask (w32 (2 * p.n)) 0 m1
  let m1 ← coreHash P p m1 out buf (w32 (p.padding_len + w32 (3 * p.n)))
  some (release m m1, addr)

/-- `thash_f`, hash.c:149-175. -/
def thashF (P : Prims) (p : Params) (m : Mem) (out inp pubSeed : Ptr) (addr : Addr) : Option (Mem × Addr) := do
  let (buf, m1) ← alloc m (w32 (p.padding_len + w32 (2 * p.n)))
  let (bitmask, m1) ← alloc m1 p.n
  let (ab, m1) ← alloc m1 32
  let m1 ← ullToBytes m1 buf p.padding_len padF
  let addr := setKeyAndMask addr 0
  let m1 ← addrToBytes m1 ab addr
  let m1 ← prf P p m1 (buf + p.padding_len) ab pubSeed
  let addr := setKeyAndMask addr 1
  let m1 ← addrToBytes m1 ab addr
  let m1 ← prf P p m1 bitmask ab pubSeed
  let m1 ← xorLoop p buf inp bitmask p.n 0 m1
  let m1 ← coreHash P p m1 out buf (w32 (p.padding_len + w32 (2 * p.n)))
  some (release m m1, addr)

/-! ### wots.c -/

/-- The loop of `expand_seed`, wots.c:24-28. -/
def expandSeedLoop (P : Prims) (p : Params) (out inseed buf : Ptr) : Nat → Nat → Mem → Addr → Option (Mem × Addr)
  | 0, _, m, a => some (m, a)
  | k + 1, i, m, a => do
    let a := setChainAddr a i
    let m ← addrToBytes m (buf + p.n) a
    let m ← prfKeygen P p m (out + w32 (i * p.n)) buf inseed
    expandSeedLoop P p out inseed buf k (i + 1) m a

/-- `expand_seed`, wots.c:14-29. -/
def expandSeed (P : Prims) (p : Params) (m : Mem) (out inseed pubSeed : Ptr) (a : Addr) : Option (Mem × Addr) := do
  let (buf, m1) ← alloc m (w32 (p.n + 32))
  let a := setHashAddr a 0
  let a := setKeyAndMask a 0
  let m1 ← memcpy m1 buf pubSeed p.n
  let r ← expandSeedLoop P p out inseed buf p.wots_len 0 m1 a
  some (release m r.1, r.2)

/-- The loop of `gen_chain`, wots.c:49-52; `bound` is `start+steps`. -/
def genChainLoop (P : Prims) (p : Params) (out pubSeed : Ptr) (bound : Nat) : Nat → Nat → Mem → Addr → Option (Mem × Addr)
  | 0, _, _, _ => none
  | fuel + 1, i, m, a =>
    if i < bound ∧ i < p.wots_w then do
      let r ← thashF P p m out out pubSeed (setHashAddr a i)
      genChainLoop P p out pubSeed bound fuel (w32 (i + 1)) r.1 r.2
    else some (m, a)

/-- `gen_chain`, wots.c:38-53. -/
def genChain (P : Prims) (p : Params) (m : Mem) (out inp : Ptr) (start steps : Nat) (pubSeed : Ptr) (a : Addr) :
    Option (Mem × Addr) := do
  let m ← memcpy m out inp p.n
  genChainLoop P p out pubSeed (w32 (start + steps)) (p.wots_w + 1) start m a

/-- `int lengths[wots_len]`, wots.c:142, 166: elements are uninitialised until written. -/
abbrev IArr := List (Option Int)

/-- `output[out] = v`, wots.c:76. -/
def iset (arr : IArr) (i : Nat) (v : Int) : Option IArr := if i < arr.length then some (arr.set i (some v)) else none

/-- `msg_base_w[i]`, `lengths[i]`, wots.c:91, 152, 174. -/
def iget (arr : IArr) (i : Nat) : Option Int := (arr[i]?).join

/-- The loop of `base_w`, wots.c:69-78, with the locals `in`, `out`, `total`, `bits`; `output` is `arr + base`. -/
def baseWLoop (p : Params) (m : Mem) (inp : Ptr) (base : Nat) :
    Nat → Nat → Nat → Option UInt8 → Int → IArr → Option IArr
  | 0, _, _, _, _, arr => some arr
  | k + 1, i, o, total, bits, arr => do
    let s ← (if bits = 0 then (load m (inp + i) 1).bind fun x => some (i + 1, some (x.headD 0), bits + 8)
      else some (i, total, bits) : Option (Nat × Option UInt8 × Int))
    let bits := asInt (usub (ofInt s.2.2) p.wots_log_w)
    if bits < 0 ∨ 32 ≤ bits then none
    else do
      let t ← s.2.1
      let arr ← iset arr (base + o) (asInt ((t.toNat >>> bits.toNat) &&& usub p.wots_w 1))
      baseWLoop p m inp base k s.1 (o + 1) s.2.1 bits arr

/-- `base_w`, wots.c:60-79; `out_len` is an `int`. -/
def baseW (p : Params) (m : Mem) (arr : IArr) (base outLen : Nat) (inp : Ptr) : Option IArr :=
  baseWLoop p m inp base (asInt outLen).toNat 0 0 none 0 arr

/-- The checksum loop, wots.c:90-92: `unsigned` arithmetic, converted to `int`. -/
def csumLoop (p : Params) (arr : IArr) : Nat → Nat → Int → Option Int
  | 0, _, csum => some csum
  | k + 1, i, csum => do
    let x ← iget arr i
    csumLoop p arr k (i + 1) (asInt (w32 (ofInt csum + usub (usub p.wots_w 1) (ofInt x))))

/-- `wots_checksum`, wots.c:82-99. -/
def wotsChecksum (p : Params) (m : Mem) (arr : IArr) : Option IArr := do
  let (cb, m1) ← alloc m (w32 (w32 (p.wots_len2 * p.wots_log_w) + 7) / 8)
  let csum ← csumLoop p arr p.wots_len1 0 0
  let s := usub 8 (w32 (p.wots_len2 * p.wots_log_w) % 8)
  if csum < 0 ∨ 32 ≤ s ∨ 2 ^ 31 ≤ csum * 2 ^ s then none
  else do
    let m1 ← ullToBytes m1 cb (w32 (w32 (p.wots_len2 * p.wots_log_w) + 7) / 8) (ofInt64 (csum * 2 ^ s))
    baseW p m1 arr p.wots_len1 p.wots_len2 cb

/-- `chain_lengths`, wots.c:102-107. -/
def chainLengths (p : Params) (m : Mem) (arr : IArr) (msg : Ptr) : Option IArr := do
  let arr ← baseW p m arr 0 p.wots_len1 msg
  wotsChecksum p m arr

/-- The loop of `wots_pkgen`, wots.c:126-130. -/
def pkgenLoop (P : Prims) (p : Params) (pk pubSeed : Ptr) : Nat → Nat → Mem → Addr → Option (Mem × Addr)
  | 0, _, m, a => some (m, a)
  | k + 1, i, m, a => do
    let r ← genChain P p m (pk + w32 (i * p.n)) (pk + w32 (i * p.n)) 0 (usub p.wots_w 1) pubSeed (setChainAddr a i)
    pkgenLoop P p pk pubSeed k (i + 1) r.1 r.2

/-- `wots_pkgen`, wots.c:117-131. -/
def wotsPkgen (P : Prims) (p : Params) (m : Mem) (pk seed pubSeed : Ptr) (a : Addr) : Option (Mem × Addr) := do
  let r ← expandSeed P p m pk seed pubSeed a
  pkgenLoop P p pk pubSeed p.wots_len 0 r.1 r.2

/-- `int lengths[params->wots_len]`, wots.c:142, 166. -/
def lengthsArr (p : Params) : Option IArr := if p.wots_len = 0 then none else some (List.replicate p.wots_len none)

/-- The loop of `wots_sign`, wots.c:149-153. -/
def wotsSignLoop (P : Prims) (p : Params) (sig pubSeed : Ptr) (lengths : IArr) :
    Nat → Nat → Mem → Addr → Option (Mem × Addr)
  | 0, _, m, a => some (m, a)
  | k + 1, i, m, a => do
    let l ← iget lengths i
    let r ← genChain P p m (sig + w32 (i * p.n)) (sig + w32 (i * p.n)) 0 (ofInt l) pubSeed (setChainAddr a i)
    wotsSignLoop P p sig pubSeed lengths k (i + 1) r.1 r.2

/-- `wots_sign`, wots.c:137-155. -/
def wotsSign (P : Prims) (p : Params) (m : Mem) (sig msg seed pubSeed : Ptr) (a : Addr) : Option (Mem × Addr) := do
  let lengths ← lengthsArr p
  let lengths ← chainLengths p m lengths msg
  let r ← expandSeed P p m sig seed pubSeed a
  wotsSignLoop P p sig pubSeed lengths p.wots_len 0 r.1 r.2

/-- The loop of `wots_pk_from_sig`, wots.c:171-175. -/
def pkFromSigLoop (P : Prims) (p : Params) (pk sig pubSeed : Ptr) (lengths : IArr) :
    Nat → Nat → Mem → Addr → Option (Mem × Addr)
  | 0, _, m, a => some (m, a)
  | k + 1, i, m, a => do
    let l ← iget lengths i
    let r ← genChain P p m (pk + w32 (i * p.n)) (sig + w32 (i * p.n)) (ofInt l) (usub (usub p.wots_w 1) (ofInt l)) pubSeed
      (setChainAddr a i)
    pkFromSigLoop P p pk sig pubSeed lengths k (i + 1) r.1 r.2

/-- `wots_pk_from_sig`, wots.c:162-176. -/
def wotsPkFromSig (P : Prims) (p : Params) (m : Mem) (pk sig msg pubSeed : Ptr) (a : Addr) : Option (Mem × Addr) := do
  let lengths ← lengthsArr p
  let lengths ← chainLengths p m lengths msg
  pkFromSigLoop P p pk sig pubSeed lengths p.wots_len 0 m a

/-! ### xmss_commons.c -/

/-- The inner loop of `l_tree`, xmss_commons.c:29-34. -/
def ltreeRow (P : Prims) (p : Params) (pk pubSeed : Ptr) : Nat → Nat → Mem → Addr → Option (Mem × Addr)
  | 0, _, m, a => some (m, a)
  | k + 1, i, m, a => do
    let r ← thashH P p m (pk + w32 (i * p.n)) (pk + w32 (w32 (i * 2) * p.n)) pubSeed (setTreeIndex a i)
    ltreeRow P p pk pubSeed k (i + 1) r.1 r.2

/-- The `while` loop of `l_tree`, xmss_commons.c:27-47. -/
def ltreeLoop (P : Prims) (p : Params) (pk pubSeed : Ptr) : Nat → Nat → Nat → Mem → Addr → Option (Mem × Addr)
  | 0, _, _, _, _ => none
  | fuel + 1, l, height, m, a =>
    if 1 < l then do
      let r ← ltreeRow P p pk pubSeed (l >>> 1) 0 m a
      if l &&& 1 = 1 then do
        let m ← memcpy r.1 (pk + w32 ((l >>> 1) * p.n)) (pk + w32 (usub l 1 * p.n)) p.n
        ltreeLoop P p pk pubSeed fuel (w32 ((l >>> 1) + 1)) (w32 (height + 1)) m (setTreeHeight r.2 (w32 (height + 1)))
      else
        ltreeLoop P p pk pubSeed fuel (l >>> 1) (w32 (height + 1)) r.1 (setTreeHeight r.2 (w32 (height + 1)))
    else some (m, a)

/-- `l_tree`, xmss_commons.c:16-49. -/
def lTree (P : Prims) (p : Params) (m : Mem) (leaf pk pubSeed : Ptr) (a : Addr) : Option (Mem × Addr) := do
  let r ← ltreeLoop P p pk pubSeed (p.wots_len + 1) p.wots_len 0 m (setTreeHeight a 0)
  let m ← memcpy r.1 leaf pk p.n
  some (m, r.2)

/-- The loop of `compute_root`, xmss_commons.c:74-89: `k` iterations remain, the next has counter `i`.
Returns memory, `leafidx` and address. -/
def computeRootLoop (P : Prims) (p : Params) (buffer pubSeed : Ptr) :
    Nat → Nat → Nat → Ptr → Mem → Addr → Option (Mem × Nat × Addr)
  | 0, _, leafidx, _, m, a => some (m, leafidx, a)
  | k + 1, i, leafidx, auth, m, a => do
    let a := setTreeHeight a i
    let leafidx := leafidx >>> 1
    let a := setTreeIndex a leafidx
    let r ← (if leafidx &&& 1 = 1 then do
        let r ← thashH P p m (buffer + p.n) buffer pubSeed a
        let m ← memcpy r.1 buffer auth p.n
        some (m, r.2)
      else do
        let r ← thashH P p m buffer buffer pubSeed a
        let m ← memcpy r.1 (buffer + p.n) auth p.n
        some (m, r.2) : Option (Mem × Addr))
    computeRootLoop P p buffer pubSeed k (i + 1) leafidx (auth + p.n) r.1 r.2

/-- `compute_root`, xmss_commons.c:54-96. -/
def computeRoot (P : Prims) (p : Params) (m : Mem) (root leaf : Ptr) (leafidx : Nat) (auth pubSeed : Ptr) (a : Addr) :
    Option (Mem × Addr) := do
  let (buffer, m1) ← alloc m (w32 (2 * p.n))
  let m1 ← (if leafidx &&& 1 = 1 then do
      let m1 ← memcpy m1 (buffer + p.n) leaf p.n
      memcpy m1 buffer auth p.n
    else do
      let m1 ← memcpy m1 buffer leaf p.n
      memcpy m1 (buffer + p.n) auth p.n : Option Mem)
  let r ← computeRootLoop P p buffer pubSeed (usub p.tree_height 1) 0 leafidx (auth + p.n) m1 a
  let a := setTreeHeight r.2.2 (usub p.tree_height 1)
  let leafidx := r.2.1 >>> 1
  let a := setTreeIndex a leafidx
  let r ← thashH P p r.1 root buffer pubSeed a
  some (release m r.1, r.2)

/-- `gen_leaf_wots`, xmss_commons.c:104-113; returns memory, `ltree_addr` and `ots_addr`. -/
def genLeafWots (P : Prims) (p : Params) (m : Mem) (leaf skSeed pubSeed : Ptr) (ltreeAddr otsAddr : Addr) :
    Option (Mem × Addr × Addr) := do
  let (pk, m1) ← alloc m p.wots_sig_bytes
  let r ← wotsPkgen P p m1 pk skSeed pubSeed otsAddr
  let r' ← lTree P p r.1 leaf pk pubSeed ltreeAddr
  some (release m r'.1, r'.2, r.2)

/-- `1 << tree_height` in `int`, xmss_core.c:47, 254, xmss_commons.c:176. -/
def oneShift (p : Params) : Option Nat := if 31 ≤ p.tree_height then none else some (1 <<< p.tree_height)

/-- The loop of `xmssmt_core_sign_open` over the subtrees, xmss_commons.c:175-201; returns the memory and `sm`. -/
def openLayers (P : Prims) (p : Params) (wotsPk leaf root pubSeed : Ptr) :
    Nat → Nat → Nat → (ots ltree node : Addr) → Ptr → Mem → Option (Mem × Ptr)
  | 0, _, _, _, _, _, sm, m => some (m, sm)
  | k + 1, i, idx, otsAddr, ltreeAddr, nodeAddr, sm, m => do
    let one ← oneShift p
    let idxLeaf := w32 (idx &&& (one - 1))
    if 64 ≤ p.tree_height then none
    else do
      let idx := idx >>> p.tree_height
      let otsAddr := setLayerAddr otsAddr i
      let ltreeAddr := setLayerAddr ltreeAddr i
      let nodeAddr := setLayerAddr nodeAddr i
      let ltreeAddr := setTreeAddr ltreeAddr idx
      let otsAddr := setTreeAddr otsAddr idx
      let nodeAddr := setTreeAddr nodeAddr idx
      let otsAddr := setOtsAddr otsAddr idxLeaf
      let w ← wotsPkFromSig P p m wotsPk sm root pubSeed otsAddr
      let sm := sm + p.wots_sig_bytes
      let ltreeAddr := setLtreeAddr ltreeAddr idxLeaf
      let l ← lTree P p w.1 leaf wotsPk pubSeed ltreeAddr
      let r ← computeRoot P p l.1 root leaf idxLeaf sm pubSeed nodeAddr
      let sm := sm + w32 (p.tree_height * p.n)
      openLayers P p wotsPk leaf root pubSeed k (i + 1) idx w.2 l.2 r.2 sm r.1

/-- `xmssmt_core_sign_open`, xmss_commons.c:136-215; returns the return value, `*mlen` and the memory. -/
def coreSignOpen (P : Prims) (p : Params) (m0 : Mem) (mbuf sm : Ptr) (smlen : Nat) (pk : Ptr) :
    Option (Int × Nat × Mem) := do
  let pubSeed := pk + p.n
  let (wotsPk, m) ← alloc m0 p.wots_sig_bytes
  let (leaf, m) ← alloc m p.n
  let (root, m) ← alloc m p.n
  let otsAddr := setType Addr.zero typeOts
  let ltreeAddr := setType Addr.zero typeLtree
  let nodeAddr := setType Addr.zero typeHashtree
  let mlen := w64 (smlen + (2 ^ 64 - p.sig_bytes % 2 ^ 64))
  let idx ← bytesToUll m sm p.index_bytes
  let m ← memcpy m (mbuf + p.sig_bytes) (sm + p.sig_bytes) mlen
  let mp ← (mbuf + p.sig_bytes).sub p.padding_len
  let mp ← mp.sub (w32 (3 * p.n))
  let m ← hashMessage P p m root (sm + p.index_bytes) pk idx mp mlen
  let r ← openLayers P p wotsPk leaf root pubSeed p.d 0 idx otsAddr ltreeAddr nodeAddr
    (sm + w32 (p.index_bytes + p.n)) m
  let x ← load r.1 root p.n
  let y ← load r.1 pk p.n
  if x ≠ y then do
    let m ← store r.1 mbuf (List.replicate mlen 0)
    some (-1, 0, release m0 m)
  else do
    let m ← memcpy r.1 mbuf r.2 mlen
    some (0, mlen, release m0 m)

/-! ### xmss_core.c -/

/-- `unsigned int heights[tree_height+1]`, xmss_core.c:26. -/
abbrev UArr := List (Option Nat)

/-- Writing `heights[i]`, xmss_core.c:54, 76. -/
def uset (arr : UArr) (i v : Nat) : Option UArr := if i < arr.length then some (arr.set i (some v)) else none

/-- Reading `heights[i]`, xmss_core.c:62-81. -/
def uget (arr : UArr) (i : Nat) : Option Nat := (arr[i]?).join

/-- `x >> k` on a 32-bit value, xmss_core.c:64, 79. -/
def shr32 (x k : Nat) : Option Nat := if 32 ≤ k then none else some (x >>> k)

/-- The `while` loop of `treehash`, xmss_core.c:62-83; returns memory, `heights`, `offset`, `node_addr`. -/
def treehashMerge (P : Prims) (p : Params) (stack auth pubSeed : Ptr) (leafIdx idx : Nat) :
    Nat → UArr → Nat → Mem → Addr → Option (Mem × UArr × Nat × Addr)
  | 0, _, _, _, _ => none
  | fuel + 1, heights, offset, m, a => do
    let c ← (if 2 ≤ offset then do
        let h1 ← uget heights (usub offset 1)
        let h2 ← uget heights (usub offset 2)
        some (h1 = h2 : Bool)
      else some false : Option Bool)
    if c then do
      let h ← uget heights (usub offset 1)
      let treeIdx ← shr32 idx (w32 (h + 1))
      let a := setTreeHeight a h
      let a := setTreeIndex a treeIdx
      let r ← thashH P p m (stack + w32 (usub offset 2 * p.n)) (stack + w32 (usub offset 2 * p.n)) pubSeed a
      let offset := usub offset 1
      let h ← uget heights (usub offset 1)
      let heights ← uset heights (usub offset 1) (w32 (h + 1))
      let h ← uget heights (usub offset 1)
      let li ← shr32 leafIdx h
      let m ← (if li ^^^ 1 = treeIdx then
          memcpy r.1 (auth + w32 (h * p.n)) (stack + w32 (usub offset 1 * p.n)) p.n
        else some r.1 : Option Mem)
      treehashMerge P p stack auth pubSeed leafIdx idx fuel heights offset m r.2
    else some (m, heights, offset, a)

/-- The `for` loop of `treehash`, xmss_core.c:47-84: `k` leaves remain, the next is `idx`. -/
def treehashLoop (P : Prims) (p : Params) (stack auth skSeed pubSeed : Ptr) (leafIdx : Nat) :
    Nat → Nat → UArr → Nat → (ots ltree node : Addr) → Mem → Option Mem
  | 0, _, _, _, _, _, _, m => some m
  | k + 1, idx, heights, offset, otsAddr, ltreeAddr, nodeAddr, m => do
    let ltreeAddr := setLtreeAddr ltreeAddr idx
    let otsAddr := setOtsAddr otsAddr idx
    let r ← genLeafWots P p m (stack + w32 (offset * p.n)) skSeed pubSeed ltreeAddr otsAddr
    let offset := w32 (offset + 1)
    let heights ← uset heights (usub offset 1) 0
    let m ← (if leafIdx ^^^ 1 = idx then memcpy r.1 auth (stack + w32 (usub offset 1 * p.n)) p.n
      else some r.1 : Option Mem)
    let s ← treehashMerge P p stack auth pubSeed leafIdx idx (p.tree_height + 2) heights offset m nodeAddr
    treehashLoop P p stack auth skSeed pubSeed leafIdx k (idx + 1) s.2.1 s.2.2.1 r.2.2 r.2.1 s.2.2.2 s.1

/-- `treehash`, xmss_core.c:19-86. -/
def treehash (P : Prims) (p : Params) (m : Mem) (root auth skSeed pubSeed : Ptr) (leafIdx : Nat) (subtree : Addr) :
    Option Mem := do
  let (stack, m1) ← alloc m (w32 (w32 (p.tree_height + 1) * p.n))
  if w32 (p.tree_height + 1) = 0 then none
  else do
    let heights : UArr := List.replicate (w32 (p.tree_height + 1)) none
    let otsAddr := setType (copySubtreeAddr Addr.zero subtree) typeOts
    let ltreeAddr := setType (copySubtreeAddr Addr.zero subtree) typeLtree
    let nodeAddr := setType (copySubtreeAddr Addr.zero subtree) typeHashtree
    let one ← oneShift p
    let m1 ← treehashLoop P p stack auth skSeed pubSeed leafIdx one 0 heights 0 otsAddr ltreeAddr nodeAddr m1
    let m1 ← memcpy m1 root stack p.n
    some (release m m1)

/-- `xmssmt_core_seed_keypair`, xmss_core.c:134-161. -/
def coreSeedKeypair (P : Prims) (p : Params) (m0 : Mem) (pk sk seed : Ptr) : Option Mem := do
  let (auth, m) ← alloc m0 (w32 (p.tree_height * p.n))
  let top := setLayerAddr Addr.zero (usub p.d 1)
  let m ← store m sk (List.replicate p.index_bytes 0)
  let sk := sk + p.index_bytes
  let m ← memcpy m sk seed (w32 (2 * p.n))
  let m ← memcpy m (sk + w32 (3 * p.n)) (seed + w32 (2 * p.n)) p.n
  let m ← memcpy m (pk + p.n) (sk + w32 (3 * p.n)) p.n
  let m ← treehash P p m pk auth sk (pk + p.n) 0 top
  let m ← memcpy m (sk + w32 (2 * p.n)) pk p.n
  some (release m0 m)

/-- `xmssmt_core_keypair`, xmss_core.c:168-177; `rnd` are the bytes `randombytes` delivers. -/
def coreKeypair (P : Prims) (p : Params) (m0 : Mem) (pk sk : Ptr) (rnd : Bytes) : Option Mem := do
  let (seed, m) ← alloc m0 (w32 (3 * p.n))
  let m ← store m seed rnd
  let m ← coreSeedKeypair P p m pk sk seed
  some (release m0 m)

/-- The loop of `xmssmt_core_sign` over the layers, xmss_core.c:253-270. -/
def signLayers (P : Prims) (p : Params) (root skSeed pubSeed : Ptr) : Nat → Nat → Nat → Addr → Ptr → Mem → Option Mem
  | 0, _, _, _, _, m => some m
  | k + 1, i, idx, otsAddr, sm, m => do
    let one ← oneShift p
    let idxLeaf := w32 (idx &&& (one - 1))
    if 64 ≤ p.tree_height then none
    else do
      let idx := idx >>> p.tree_height
      let otsAddr := setLayerAddr otsAddr i
      let otsAddr := setTreeAddr otsAddr idx
      let otsAddr := setOtsAddr otsAddr idxLeaf
      let w ← wotsSign P p m sm root skSeed pubSeed otsAddr
      let sm := sm + p.wots_sig_bytes
      let m ← treehash P p w.1 root sm skSeed pubSeed idxLeaf w.2
      let sm := sm + w32 (p.tree_height * p.n)
      signLayers P p root skSeed pubSeed k (i + 1) idx w.2 sm m

/-- `xmssmt_core_sign` after the exhaustion check, xmss_core.c:233-272 (return value 0). -/
def coreSignBody (P : Prims) (p : Params) (m : Mem) (root idx32 sk sm : Ptr) (mlen idx : Nat) : Option Mem := do
  let skSeed := sk + p.index_bytes
  let skPrf := sk + p.index_bytes + p.n
  let pubRoot := sk + p.index_bytes + w32 (2 * p.n)
  let pubSeed := sk + p.index_bytes + w32 (3 * p.n)
  let m ← memcpy m sm sk p.index_bytes
  let m ← ullToBytes m sk p.index_bytes (w64 (idx + 1))
  let m ← ullToBytes m idx32 32 idx
  let m ← prf P p m (sm + p.index_bytes) idx32 skPrf
  let mp ← (sm + p.sig_bytes).sub p.padding_len
  let mp ← mp.sub (w32 (3 * p.n))
  let m ← hashMessage P p m root (sm + p.index_bytes) pubRoot idx mp mlen
  signLayers P p root skSeed pubSeed p.d 0 idx (setType Addr.zero typeOts) (sm + w32 (p.index_bytes + p.n)) m

/-- `xmssmt_core_sign`, xmss_core.c:183-273; returns the return value, `*smlen` and the memory. -/
def coreSign (P : Prims) (p : Params) (m0 : Mem) (sk sm msg : Ptr) (mlen : Nat) : Option (Int × Nat × Mem) := do
  let (root, m) ← alloc m0 p.n
  let (idx32, m) ← alloc m 32
  let m ← memcpy m (sm + p.sig_bytes) msg mlen
  let smlen := w64 (p.sig_bytes + mlen)
  let idx ← bytesToUll m sk p.index_bytes
  if 64 ≤ p.full_height then none
  else do
    let last := 2 ^ p.full_height - 1
    if last ≤ idx then do
      let m ← store m sk (List.replicate p.index_bytes 0xFF)
      let m ← store m (sk + p.index_bytes) (List.replicate (w64 (p.sk_bytes + (2 ^ 64 - p.index_bytes))) 0)
      if last < idx ∨ (p.full_height = 64 ∧ idx = last) then some (-2, smlen, release m0 m)
      else do
        let m ← coreSignBody P p m root idx32 sk sm mlen idx
        some (0, smlen, release m0 m)
    else do
      let m ← coreSignBody P p m root idx32 sk sm mlen idx
      some (0, smlen, release m0 m)

/-! ### xmss.c -/

/-- The loop that writes the OID in front of a key, xmss.c:18-24 / 70-73 (`i` counts up; the byte stored at offset
`XMSS_OID_LEN - i - 1`). -/
def oidWriteLoop (pk sk : Ptr) (oid : Nat) : Nat → Nat → Mem → Option Mem
  | 0, _, m => some m
  | k + 1, i, m => do
    let m ← store m (pk + (oidLen - i - 1)) [UInt8.ofNat ((oid >>> (8 * i)) &&& 0xFF)]
    let m ← store m (sk + (oidLen - i - 1)) [UInt8.ofNat ((oid >>> (8 * i)) &&& 0xFF)]
    oidWriteLoop pk sk oid k (i + 1) m

/-- The loop that reads the OID of a key, xmss.c:36-38 etc.: `oid |= key[XMSS_OID_LEN - i - 1] << (i * 8)`, the shift in
`int`. -/
def oidReadLoop (m : Mem) (key : Ptr) : Nat → Nat → Nat → Option Nat
  | 0, _, oid => some oid
  | k + 1, i, oid => do
    let x ← load m (key + (oidLen - i - 1)) 1
    if 2 ^ 31 ≤ (x.headD 0).toNat * 2 ^ (8 * i) then none
    else oidReadLoop m key k (i + 1) (oid ||| ((x.headD 0).toNat <<< (8 * i)))

/-- `xmss_keypair` / `xmssmt_keypair`, xmss.c:10-26, 62-75; `rnd p` are the bytes `randombytes` delivers. -/
def apiKeypair (P : Prims) (parse : Nat → Option Params) (m : Mem) (pk sk : Ptr) (oid : Nat) (rnd : Params → Bytes) :
    Option (Int × Mem) :=
  match parse oid with
  | none => some (-1, m)
  | some p => do
    let m ← oidWriteLoop pk sk oid oidLen 0 m
    let m ← coreKeypair P p m (pk + oidLen) (sk + oidLen) (rnd p)
    some (0, m)

/-- `xmss_sign` / `xmssmt_sign`, xmss.c:28-43, 77-92; `smlen0` is the previous value of `*smlen`. -/
def apiSign (P : Prims) (parse : Nat → Option Params) (m : Mem) (sk sm : Ptr) (smlen0 : Nat) (msg : Ptr) (mlen : Nat) :
    Option (Int × Nat × Mem) := do
  let oid ← oidReadLoop m sk oidLen 0 0
  match parse oid with
  | none => some (-1, smlen0, m)
  | some p => coreSign P p m (sk + oidLen) sm msg mlen

/-- `xmss_sign_open` / `xmssmt_sign_open`, xmss.c:45-60, 94-109; `mlen0` is the previous value of `*mlen`. -/
def apiOpen (P : Prims) (parse : Nat → Option Params) (m : Mem) (mbuf : Ptr) (mlen0 : Nat) (sm : Ptr) (smlen : Nat)
    (pk : Ptr) : Option (Int × Nat × Mem) := do
  let oid ← oidReadLoop m pk oidLen 0 0
  match parse oid with
  | none => some (-1, mlen0, m)
  | some p => coreSignOpen P p m mbuf sm smlen (pk + oidLen)

end Xmss.Low
