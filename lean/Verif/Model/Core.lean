import Verif.Model.Tree
/-
Model of xmss_core.c (simple implementation) and of the verification in xmss_commons.c, on flat byte buffers.

`H` is the function computed by `core_hash` for the given parameters.  `none` is undefined behaviour.
Assumption on callers (also made by the C code): the buffers passed to one call do not overlap.
-/
namespace Xmss

/-- Split a flat array into `k` nodes of `n` bytes (`array + j*n`, used wherever the C code indexes node arrays in a
byte buffer, e.g. xmss_commons.c:75-88 or xmss_core.c:80). -/
def chunks (n : Nat) : Nat → Bytes → List Bytes
  | 0, _ => []
  | k + 1, bs => bs.take n :: chunks n k (bs.drop n)

/-- `idx & ((1 << tree_height)-1)`, xmss_core.c:254, xmss_commons.c:176.  `1 << tree_height` is computed in `int`:
undefined for tree_height ≥ 31. -/
def leafOf (p : Params) (idx : Nat) : Option Nat :=
  if 31 ≤ p.tree_height then none else some (idx &&& ((1 <<< p.tree_height) - 1))

/-- Body and result of `xmssmt_core_seed_keypair`, xmss_core.c:134-161, on the buffers `pk` and `sk`.
(The previous content of the local `auth_path` is irrelevant and taken to be zero.) -/
def coreSeedKeypair (H : Bytes → Bytes) (p : Params) (pk sk seed : Bytes) : Option (Bytes × Bytes) := do
  let top := setLayerAddr Addr.zero (p.d - 1)
  let sk ← wr sk 0 (List.replicate p.index_bytes 0)
  let seed2 ← rd seed 0 (2 * p.n)
  let sk ← wr sk p.index_bytes seed2
  let seed3 ← rd seed (2 * p.n) p.n
  let sk ← wr sk (p.index_bytes + 3 * p.n) seed3
  let pubSeed ← rd sk (p.index_bytes + 3 * p.n) p.n
  let pk ← wr pk p.n pubSeed
  let skSeed ← rd sk p.index_bytes p.n
  let pubSeed' ← rd pk p.n p.n
  let r ← treehash H p skSeed pubSeed' 0 top (List.replicate p.tree_height (List.replicate p.n 0))
  let pk ← wr pk 0 r.1
  let root ← rd pk 0 p.n
  let sk ← wr sk (p.index_bytes + 2 * p.n) root
  some (pk, sk)

/-- What a call of a sign function (xmss_core.c:116, 183) leaves behind: return value, secret key buffer, `sm` buffer and
`*smlen`. -/
structure SignOut where
  ret : Int
  sk : Bytes
  sm : Bytes
  smlen : Nat
deriving DecidableEq, Repr

/-- The loop over the layers in `xmssmt_core_sign`, xmss_core.c:253-270: `k` layers remain, the next is `i`;
`off` is the current offset of the C pointer `sm` in the buffer. -/
def signLayers (H : Bytes → Bytes) (p : Params) (skSeed pubSeed : Bytes) :
    Nat → Nat → Nat → Addr → Bytes → Bytes → Nat → Option Bytes
  | 0, _, _, _, _, sm, _ => some sm
  | k + 1, i, idx, otsAddr, root, sm, off => do
    let idxLeaf ← leafOf p idx
    let idx := idx >>> p.tree_height
    let otsAddr := setLayerAddr otsAddr i
    let otsAddr := setTreeAddr otsAddr idx
    let otsAddr := setOtsAddr otsAddr idxLeaf
    let w := wotsSign H p root skSeed pubSeed otsAddr
    let sm ← wr sm off w.1.flatten
    let off := off + p.wots_sig_bytes
    let old ← rd sm off (p.tree_height * p.n)
    let t ← treehash H p skSeed pubSeed idxLeaf w.2 (chunks p.n p.tree_height old)
    let sm ← wr sm off t.2.flatten
    signLayers H p skSeed pubSeed k (i + 1) idx w.2 t.1 sm (off + p.tree_height * p.n)

/-- Deleting the secret key, xmss_core.c:225-226: index bytes 0xFF, everything else 0. -/
def wipeKey (p : Params) (sk : Bytes) : Option Bytes := do
  let sk ← wr sk 0 (List.replicate p.index_bytes 0xFF)
  wr sk p.index_bytes (List.replicate (p.sk_bytes - p.index_bytes) 0)

/-- `xmssmt_core_sign`, second part, xmss_core.c:233-272: everything after the exhaustion check, with `sk` as it is then.
Line 233 copies the index bytes of `sk` to `sm`, line 239 increments the index in `sk`; `sk_seed`, `sk_prf`, `pub_root`,
`pub_seed` are pointers into `sk`, read after that. -/
def coreSignBody (H : Bytes → Bytes) (p : Params) (sk sm : Bytes) (mlen idx : Nat) : Option SignOut := do
  let skIdx ← rd sk 0 p.index_bytes
  let sm ← wr sm 0 skIdx
  let sk ← wr sk 0 (ullToBytes p.index_bytes (idx + 1))
  let skSeed ← rd sk p.index_bytes p.n
  let skPrf ← rd sk (p.index_bytes + p.n) p.n
  let pubRoot ← rd sk (p.index_bytes + 2 * p.n) p.n
  let pubSeed ← rd sk (p.index_bytes + 3 * p.n) p.n
  let sm ← wr sm p.index_bytes (prf H p (ullToBytes 32 idx) skPrf)
  let R ← rd sm p.index_bytes p.n
  if p.sig_bytes < p.padding_len + 3 * p.n then none
  else
    let hm ← hashMessage H p R pubRoot idx sm (p.sig_bytes - p.padding_len - 3 * p.n) mlen
    let sm ← signLayers H p skSeed pubSeed p.d 0 idx (setType Addr.zero typeOts) hm.1 hm.2 (p.index_bytes + p.n)
    some { ret := 0, sk := sk, sm := sm, smlen := p.sig_bytes + mlen }

/-- `xmssmt_core_sign` of the simple implementation, xmss_core.c:183-273 (and `xmss_core_sign`, 116-126, which calls it).
`sk` and `sm` are the caller's buffers, `m` the `mlen` bytes of the message.
`1ULL << full_height` is undefined for full_height ≥ 64 (so the special case of line 229 is never reached). -/
def coreSign (H : Bytes → Bytes) (p : Params) (sk sm m : Bytes) : Option SignOut := do
  let sm ← wr sm p.sig_bytes m
  let idxBytes ← rd sk 0 p.index_bytes
  let idx ← bytesToUll idxBytes
  if 64 ≤ p.full_height then none
  else
    let last := 2 ^ p.full_height - 1
    let sk ← (if last ≤ idx then wipeKey p sk else some sk : Option Bytes)
    if last < idx ∨ (p.full_height = 64 ∧ idx = last) then
      some { ret := -2, sk := sk, sm := sm, smlen := p.sig_bytes + m.length }
    else coreSignBody H p sk sm m.length idx

/-- What a call of an open function (xmss_commons.c:120, 136) leaves behind: return value, `m` buffer, `*mlen`. -/
structure OpenOut where
  ret : Int
  m : Bytes
  mlen : Nat
deriving DecidableEq, Repr

/-- The loop over the subtrees in `xmssmt_core_sign_open`, xmss_commons.c:175-201; returns the final `root`. -/
def openLayers (H : Bytes → Bytes) (p : Params) (pubSeed sm : Bytes) :
    Nat → Nat → Nat → (ots ltree node : Addr) → Bytes → Nat → Option Bytes
  | 0, _, _, _, _, _, root, _ => some root
  | k + 1, i, idx, otsAddr, ltreeAddr, nodeAddr, root, off => do
    let idxLeaf ← leafOf p idx
    let idx := idx >>> p.tree_height
    let otsAddr := setLayerAddr otsAddr i
    let ltreeAddr := setLayerAddr ltreeAddr i
    let nodeAddr := setLayerAddr nodeAddr i
    let ltreeAddr := setTreeAddr ltreeAddr idx
    let otsAddr := setTreeAddr otsAddr idx
    let nodeAddr := setTreeAddr nodeAddr idx
    let otsAddr := setOtsAddr otsAddr idxLeaf
    let sig ← rd sm off (p.wots_len * p.n)
    let w := wotsPkFromSig H p (chunks p.n p.wots_len sig) root pubSeed otsAddr
    let off := off + p.wots_sig_bytes
    let ltreeAddr := setLtreeAddr ltreeAddr idxLeaf
    let l := lTree H p w.1 pubSeed ltreeAddr
    let auth ← rd sm off (p.tree_height * p.n)
    let r ← computeRoot H p l.1 idxLeaf (chunks p.n p.tree_height auth) pubSeed nodeAddr
    openLayers H p pubSeed sm k (i + 1) idx w.2 l.2 r.2 r.1 (off + p.tree_height * p.n)

/-- `xmssmt_core_sign_open`, xmss_commons.c:136-215 (and `xmss_core_sign_open`, 120-130, which calls it).
`pk` is root || PUB_SEED, `m` the caller's output buffer.  `smlen - sig_bytes` wraps around modulo 2^64.
When the root does not match, line 206-208 zeroes `*mlen` bytes of `m`. -/
def coreSignOpen (H : Bytes → Bytes) (p : Params) (m sm : Bytes) (smlen : Nat) (pk : Bytes) : Option OpenOut := do
  let pubRoot ← rd pk 0 p.n
  let pubSeed ← rd pk p.n p.n
  let mlen := (smlen + 2 ^ 64 - p.sig_bytes) % 2 ^ 64
  let idxBytes ← rd sm 0 p.index_bytes
  let idx ← bytesToUll idxBytes
  let msg ← rd sm p.sig_bytes mlen
  let m ← wr m p.sig_bytes msg
  if p.sig_bytes < p.padding_len + 3 * p.n then none
  else
    let R ← rd sm p.index_bytes p.n
    let hm ← hashMessage H p R pubRoot idx m (p.sig_bytes - p.padding_len - 3 * p.n) mlen
    let m := hm.2
    let otsAddr := setType Addr.zero typeOts
    let ltreeAddr := setType Addr.zero typeLtree
    let nodeAddr := setType Addr.zero typeHashtree
    let root ← openLayers H p pubSeed sm p.d 0 idx otsAddr ltreeAddr nodeAddr hm.1 (p.index_bytes + p.n)
    if root ≠ pubRoot then
      let m ← wr m 0 (List.replicate mlen 0)
      some { ret := -1, m := m, mlen := 0 }
    else
      let msg ← rd sm (p.index_bytes + p.n + p.d * (p.wots_sig_bytes + p.tree_height * p.n)) mlen
      let m ← wr m 0 msg
      some { ret := 0, m := m, mlen := mlen }

end Xmss
