import Verif.Model.Api
import Verif.Model.FastCore
/-
The API called with pointers into one memory: the message and the signed message may overlap (xmss.h:19-32, 47-60 do not
forbid it; the arguments are not `restrict`).  A pointer is an offset into `mem`.  The keys lie elsewhere.

The other models (Api.lean, Core.lean, FastCore.lean) have separate buffers.
-/
namespace Xmss

/-- `memcpy(dst, src, len)` inside one memory, e.g. xmss_core.c:205, xmss_commons.c:166.  Overlapping operands are
undefined behaviour: `none`.  Simplification: copying a region onto itself, formally undefined too, leaves it as it is (as
all implementations of memcpy do). -/
def memcpyIn (mem : Bytes) (dst src len : Nat) : Option Bytes :=
  if dst = src then (rd mem src len).map fun _ => mem
  else if src + len ≤ dst ∨ dst + len ≤ src then do wr mem dst (← rd mem src len)
  else if len = 0 then some mem
  else none

/-- `hash_message`, hash.c:99-112, with `R` a pointer into the memory that also holds `m_with_prefix`; see `hashMessage`. -/
def hashMessageIn (H : Bytes → Bytes) (p : Params) (mem : Bytes) (R : Nat) (root : Bytes) (idx mWithPrefix mlen : Nat) :
    Option (Bytes × Bytes) := do
  let mem ← wr mem mWithPrefix (ullToBytes p.padding_len padHash)
  let mem ← memcpyIn mem (mWithPrefix + p.padding_len) R p.n
  let mem ← wr mem (mWithPrefix + p.padding_len + p.n) root
  let mem ← wr mem (mWithPrefix + p.padding_len + 2 * p.n) (ullToBytes p.n idx)
  let inp ← rd mem mWithPrefix (mlen + p.padding_len + 3 * p.n)
  some (H inp, mem)

/-- `xmssmt_core_sign_open`, xmss_commons.c:136-215, with the pointers `m` and `sm` into one memory; see `coreSignOpen`. -/
def coreSignOpenIn (H : Bytes → Bytes) (p : Params) (mem : Bytes) (m sm smlen : Nat) (pk : Bytes) : Option OpenOut := do
  let pubRoot ← rd pk 0 p.n
  let pubSeed ← rd pk p.n p.n
  let mlen := (smlen + 2 ^ 64 - p.sig_bytes) % 2 ^ 64
  let idxBytes ← rd mem sm p.index_bytes
  let idx ← bytesToUll idxBytes
  let mem ← memcpyIn mem (m + p.sig_bytes) (sm + p.sig_bytes) mlen
  if m + p.sig_bytes < p.padding_len + 3 * p.n then none
  else
    let hm ← hashMessageIn H p mem (sm + p.index_bytes) pubRoot idx (m + p.sig_bytes - p.padding_len - 3 * p.n) mlen
    let mem := hm.2
    let otsAddr := setType Addr.zero typeOts
    let ltreeAddr := setType Addr.zero typeLtree
    let nodeAddr := setType Addr.zero typeHashtree
    let root ← openLayers H p pubSeed mem p.d 0 idx otsAddr ltreeAddr nodeAddr hm.1 (sm + p.index_bytes + p.n)
    if root ≠ pubRoot then
      let mem ← wr mem m (List.replicate mlen 0)
      some { ret := -1, m := mem, mlen := 0 }
    else
      let mem ← memcpyIn mem m (sm + (p.index_bytes + p.n + p.d * (p.wots_sig_bytes + p.tree_height * p.n))) mlen
      some { ret := 0, m := mem, mlen := mlen }

/-- `xmss_sign_open` / `xmssmt_sign_open`, xmss.c:45-60, 94-109, with the pointers `m` and `sm` into one memory; the `m` of
the result is the whole memory. -/
def apiOpenIn (P : Prims) (parse : Nat → Option Params) (mem : Bytes) (m mlen0 sm smlen : Nat) (pk : Bytes) :
    Option OpenOut := do
  let oid ← readOid pk
  match parse oid with
  | none => some { ret := -1, m := mem, mlen := mlen0 }
  | some p => do
    let H ← coreHash P p.func p.n
    coreSignOpenIn H p mem m sm smlen (pk.drop oidLen)

/-- `xmssmt_core_sign`, xmss_core.c:183-273, with the pointers `sm` and `m` into one memory.  Line 205 is the only one that
reads `m`; the rest works on the `sig_bytes + mlen` bytes at `sm` only, and is `coreSign` on them (whose first step stores
the message behind the signature once more, which changes nothing).  The `sm` of the result is the whole memory. -/
def coreSignIn (H : Bytes → Bytes) (p : Params) (sk mem : Bytes) (sm m mlen : Nat) : Option SignOut := do
  let mem ← memcpyIn mem (sm + p.sig_bytes) m mlen
  let win ← rd mem sm (p.sig_bytes + mlen)
  let msg ← rd mem (sm + p.sig_bytes) mlen
  let o ← coreSign H p sk win msg
  let mem ← wr mem sm o.sm
  some { o with sm := mem }

/-- `xmss_sign` / `xmssmt_sign`, xmss.c:28-43, 77-92, with the pointers `sm` and `m` into one memory. -/
def apiSignIn (P : Prims) (parse : Nat → Option Params) (sk mem : Bytes) (sm smlen0 m mlen : Nat) : Option SignOut := do
  let oid ← readOid sk
  match parse oid with
  | none => some { ret := -1, sk := sk, sm := mem, smlen := smlen0 }
  | some p =>
    let H ← coreHash P p.func p.n
    let r ← coreSignIn H p (sk.drop oidLen) mem sm m mlen
    some { r with sk := sk.take oidLen ++ r.sk }

/-- `xmss_core_sign` and `xmssmt_core_sign` of the fast implementation, xmss_core_fast.c:584-720, 785-988, with the
pointers `sm` and `m` into one memory; `sign` is the function on separate buffers.  When there is nothing left to sign
with, nothing is written.  Otherwise the message is copied behind the place of the signature (lines 661, 870), the
signature is computed from that copy and written, and then the message is copied a second time, from where `m` points
(lines 713, 982). -/
def fastSignIn (sign : Bytes → Bytes → Nat → Bytes → Option FastOut) (p : Params) (sk mem : Bytes) (sm smlen0 m mlen : Nat) :
    Option FastOut := do
  let win ← rd mem sm (p.sig_bytes + mlen)
  let msg ← rd mem m mlen
  let o ← sign sk win smlen0 msg
  if o.ret ≠ 0 then some { o with sm := mem }
  else
    let mem ← memcpyIn mem (sm + p.sig_bytes) m mlen
    let mem ← wr mem sm (o.sm.take p.sig_bytes)
    let mem ← memcpyIn mem (sm + p.sig_bytes) m mlen
    some { o with sm := mem }

/-- `xmss_sign` / `xmssmt_sign`, xmss.c:28-43, 77-92, of the fast build with the pointers `sm` and `m` into one memory. -/
def apiSignFastIn (P : Prims) (parse : Nat → Option Params)
    (sign : (Bytes → Bytes) → Params → Bytes → Bytes → Nat → Bytes → Option FastOut) (sk mem : Bytes)
    (sm smlen0 m mlen : Nat) : Option FastOut := do
  let oid ← readOid sk
  match parse oid with
  | none => some { ret := -1, sk := sk, sm := mem, smlen := smlen0, leaves := 0 }
  | some p =>
    let H ← coreHash P p.func p.n
    let r ← fastSignIn (sign H p) p (sk.drop oidLen) mem sm smlen0 m mlen
    some { r with sk := sk.take oidLen ++ r.sk }

end Xmss
