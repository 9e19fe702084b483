import Verif.Model.Api
/-
The functions of the simple implementation and of verification once more, with a record of the calls of `core_hash` (hash.c:25):
for every call the value of its argument `inlen` (C72-C75), or this value and the bytes hashed (C76), in order.

Every function here is the function of the same name in Model/Hash, Wots, Tree, Core, Api with the calls recorded; that it
computes the same is proved for each (Proof/Trace).
-/
namespace Xmss

/-- A computation that may be undefined (`none`) and records something about every call of `core_hash`, hash.c:25-57. -/
def TrG (κ α : Type) : Type := Option (α × List κ)

/-- (core_hash, hash.c:25) what is recorded of a call with the argument `inlen` and the `inlen` bytes `x` -/
class Rec (κ : Type) where
  /-- (core_hash, hash.c:25) the record of one call -/
  call : (inlen : Nat) → (x : Bytes) → κ

/-- (core_hash, hash.c:25) the value of `inlen` -/
instance : Rec Nat := ⟨fun inlen _ => inlen⟩
/-- (core_hash, hash.c:25) the value of `inlen` and the input -/
instance : Rec (Nat × Bytes) := ⟨fun inlen x => (inlen, x)⟩

/-- A computation that may be undefined (`none`) and records the lengths of the inputs of the calls of `core_hash`, hash.c:25-57. -/
abbrev Tr : Type → Type := TrG Nat

namespace Tr
variable {κ : Type}
/-- (core_hash, hash.c:25) no call -/
def ret {α : Type} (a : α) : TrG κ α := some (a, [])
/-- (core_hash, hash.c:25) one computation after another -/
def seq {α β : Type} (t : TrG κ α) (f : α → TrG κ β) : TrG κ β :=
  match t with
  | none => none
  | some (a, l) =>
    match f a with
    | none => none
    | some (b, l') => some (b, l ++ l')
/-- (core_hash, hash.c:25) a step without calls that may be undefined -/
def opt {α : Type} (o : Option α) : TrG κ α := o.map fun a => (a, [])

instance : Monad (TrG κ) where
  pure := ret
  bind := seq
end Tr

variable {κ : Type} [Rec κ]

/-- `core_hash(params, out, in, inlen)`, hash.c:25-57, on the `inlen` bytes `x`. -/
def coreHashT (H : Bytes → Bytes) (inlen : Nat) (x : Bytes) : TrG κ Bytes := (some (H x, [Rec.call inlen x]) : Option (Bytes × List κ))

/-- `prf`, hash.c:62-73; the length is that of line 72. -/
def prfT (H : Bytes → Bytes) (p : Params) (inp key : Bytes) : TrG κ Bytes := coreHashT H (p.padding_len + p.n + 32) (prfInput p inp key)

/-- `prf_keygen`, hash.c:79-90; the length is that of line 89. -/
def prfKeygenT (H : Bytes → Bytes) (p : Params) (inp key : Bytes) : TrG κ Bytes :=
  coreHashT H (p.padding_len + 2 * p.n + 32) (prfKeygenInput p inp key)

/-- `hash_message`, hash.c:99-112; the length is that of line 111. -/
def hashMessageT (H : Bytes → Bytes) (p : Params) (R root : Bytes) (idx : Nat) (buf : Bytes) (off mlen : Nat) : TrG κ (Bytes × Bytes) := do
  let buf ← Tr.opt (wr buf off (ullToBytes p.padding_len padHash))
  let buf ← Tr.opt (wr buf (off + p.padding_len) R)
  let buf ← Tr.opt (wr buf (off + p.padding_len + p.n) root)
  let buf ← Tr.opt (wr buf (off + p.padding_len + 2 * p.n) (ullToBytes p.n idx))
  let inp ← Tr.opt (rd buf off (mlen + p.padding_len + 3 * p.n))
  let h ← coreHashT H (mlen + p.padding_len + 3 * p.n) inp
  pure (h, buf)

/-- `thash_h`, hash.c:117-147. -/
def thashHT (H : Bytes → Bytes) (p : Params) (inp pubSeed : Bytes) (addr : Addr) : TrG κ (Bytes × Addr) := do
  let addr := setKeyAndMask addr 0
  let key ← prfT H p (addrToBytes addr) pubSeed
  let addr := setKeyAndMask addr 1
  let mask0 ← prfT H p (addrToBytes addr) pubSeed
  let addr := setKeyAndMask addr 2
  let mask1 ← prfT H p (addrToBytes addr) pubSeed
  let h ← coreHashT H (p.padding_len + 3 * p.n) (ullToBytes p.padding_len padH ++ key ++ xorBytes inp (mask0 ++ mask1))
  pure (h, addr)

/-- `thash_f`, hash.c:149-175. -/
def thashFT (H : Bytes → Bytes) (p : Params) (inp pubSeed : Bytes) (addr : Addr) : TrG κ (Bytes × Addr) := do
  let addr := setKeyAndMask addr 0
  let key ← prfT H p (addrToBytes addr) pubSeed
  let addr := setKeyAndMask addr 1
  let mask ← prfT H p (addrToBytes addr) pubSeed
  let h ← coreHashT H (p.padding_len + 2 * p.n) (ullToBytes p.padding_len padF ++ key ++ xorBytes inp mask)
  pure (h, addr)

/-! ### wots.c -/

/-- Loop of `expand_seed`, wots.c:24-28. -/
def expandSeedLoopT (H : Bytes → Bytes) (p : Params) (inseed pubSeed : Bytes) : Nat → Nat → Addr → TrG κ (List Bytes × Addr)
  | 0, _, addr => pure ([], addr)
  | k + 1, i, addr => do
    let addr := setChainAddr addr i
    let node ← prfKeygenT H p (pubSeed ++ addrToBytes addr) inseed
    let r ← expandSeedLoopT H p inseed pubSeed k (i + 1) addr
    pure (node :: r.1, r.2)

/-- `expand_seed`, wots.c:14-29. -/
def expandSeedT (H : Bytes → Bytes) (p : Params) (inseed pubSeed : Bytes) (addr : Addr) : TrG κ (List Bytes × Addr) :=
  let addr := setHashAddr addr 0
  let addr := setKeyAndMask addr 0
  expandSeedLoopT H p inseed pubSeed p.wots_len 0 addr

/-- Loop of `gen_chain`, wots.c:49-52. -/
def genChainLoopT (H : Bytes → Bytes) (p : Params) (pubSeed : Bytes) : Nat → Nat → Bytes → Addr → TrG κ (Bytes × Addr)
  | 0, _, out, addr => pure (out, addr)
  | k + 1, i, out, addr => do
    let r ← thashFT H p out pubSeed (setHashAddr addr i)
    genChainLoopT H p pubSeed k (i + 1) r.1 r.2

/-- `gen_chain`, wots.c:38-53. -/
def genChainT (H : Bytes → Bytes) (p : Params) (inp : Bytes) (start steps : Nat) (pubSeed : Bytes) (addr : Addr) :
    TrG κ (Bytes × Addr) :=
  genChainLoopT H p pubSeed (min (start + steps) p.wots_w - start) start inp addr

/-- The loop over the chains, wots.c:126-130, 149-153, 171-175. -/
def chainsLoopT (H : Bytes → Bytes) (p : Params) (pubSeed : Bytes) :
    Nat → List (Bytes × Nat × Nat) → Addr → TrG κ (List Bytes × Addr)
  | _, [], addr => pure ([], addr)
  | i, (x, start, steps) :: rest, addr => do
    let r ← genChainT H p x start steps pubSeed (setChainAddr addr i)
    let r' ← chainsLoopT H p pubSeed (i + 1) rest r.2
    pure (r.1 :: r'.1, r'.2)

/-- `wots_pkgen`, wots.c:117-131. -/
def wotsPkgenT (H : Bytes → Bytes) (p : Params) (seed pubSeed : Bytes) (addr : Addr) : TrG κ (List Bytes × Addr) := do
  let r ← expandSeedT H p seed pubSeed addr
  chainsLoopT H p pubSeed 0 (r.1.map fun x => (x, 0, p.wots_w - 1)) r.2

/-- `wots_sign`, wots.c:137-155. -/
def wotsSignT (H : Bytes → Bytes) (p : Params) (msg seed pubSeed : Bytes) (addr : Addr) : TrG κ (List Bytes × Addr) := do
  let lengths := chainLengths p msg
  let r ← expandSeedT H p seed pubSeed addr
  chainsLoopT H p pubSeed 0 (List.zipWith (fun x l => (x, 0, l)) r.1 lengths) r.2

/-- `wots_pk_from_sig`, wots.c:162-176. -/
def wotsPkFromSigT (H : Bytes → Bytes) (p : Params) (sig : List Bytes) (msg pubSeed : Bytes) (addr : Addr) : TrG κ (List Bytes × Addr) :=
  let lengths := chainLengths p msg
  chainsLoopT H p pubSeed 0 (List.zipWith (fun x l => (x, l, p.wots_w - 1 - l)) sig lengths) addr

/-! ### xmss_commons.c and treehash -/

/-- Inner loop of `l_tree`, xmss_commons.c:29-34. -/
def ltreeRowT (H : Bytes → Bytes) (p : Params) (pubSeed : Bytes) : Nat → Nat → List Bytes → Addr → TrG κ (List Bytes × Addr)
  | 0, _, nodes, addr => pure (nodes, addr)
  | k + 1, i, nodes, addr => do
    let r ← thashHT H p (nodes.getD (2 * i) [] ++ nodes.getD (2 * i + 1) []) pubSeed (setTreeIndex addr i)
    ltreeRowT H p pubSeed k (i + 1) (nodes.set i r.1) r.2

/-- `while (l > 1)` of `l_tree`, xmss_commons.c:27-47. -/
def ltreeLoopT (H : Bytes → Bytes) (p : Params) (pubSeed : Bytes) : Nat → Nat → Nat → List Bytes → Addr → TrG κ (List Bytes × Addr)
  | 0, _, _, nodes, addr => pure (nodes, addr)
  | fuel + 1, l, height, nodes, addr =>
    if l ≤ 1 then pure (nodes, addr)
    else do
      let r ← ltreeRowT H p pubSeed (l >>> 1) 0 nodes addr
      let s : List Bytes × Nat :=
        if l &&& 1 = 1 then (r.1.set (l >>> 1) (r.1.getD (l - 1) []), (l >>> 1) + 1) else (r.1, l >>> 1)
      ltreeLoopT H p pubSeed fuel s.2 (height + 1) s.1 (setTreeHeight r.2 (height + 1))

/-- `l_tree`, xmss_commons.c:16-49. -/
def lTreeT (H : Bytes → Bytes) (p : Params) (wotsPk : List Bytes) (pubSeed : Bytes) (addr : Addr) : TrG κ (Bytes × Addr) := do
  let r ← ltreeLoopT H p pubSeed p.wots_len p.wots_len 0 wotsPk (setTreeHeight addr 0)
  pure (r.1.getD 0 [], r.2)

/-- Loop of `compute_root`, xmss_commons.c:74-89, and the final hash, 91-95. -/
def computeRootLoopT (H : Bytes → Bytes) (p : Params) (pubSeed : Bytes) : Nat → Nat → List Bytes → Bytes → Addr → TrG κ (Bytes × Addr)
  | i, leafidx, [], buffer, addr =>
    let leafidx := leafidx >>> 1
    thashHT H p buffer pubSeed (setTreeIndex (setTreeHeight addr i) leafidx)
  | i, leafidx, a :: auth, buffer, addr => do
    let leafidx := leafidx >>> 1
    let r ← thashHT H p buffer pubSeed (setTreeIndex (setTreeHeight addr i) leafidx)
    computeRootLoopT H p pubSeed (i + 1) leafidx auth (arrange leafidx r.1 a) r.2

/-- `compute_root`, xmss_commons.c:54-96. -/
def computeRootT (H : Bytes → Bytes) (p : Params) (leaf : Bytes) (leafidx : Nat) (auth : List Bytes) (pubSeed : Bytes)
    (addr : Addr) : TrG κ (Bytes × Addr) :=
  match auth with
  | [] => Tr.opt none
  | a :: rest => computeRootLoopT H p pubSeed 0 leafidx rest (arrange leafidx leaf a) addr

/-- `gen_leaf_wots`, xmss_commons.c:104-113. -/
def genLeafWotsT (H : Bytes → Bytes) (p : Params) (skSeed pubSeed : Bytes) (ltreeAddr otsAddr : Addr) : TrG κ (Bytes × Addr × Addr) := do
  let r ← wotsPkgenT H p skSeed pubSeed otsAddr
  let r' ← lTreeT H p r.1 pubSeed ltreeAddr
  pure (r'.1, r'.2, r.2)

/-- The `while` loop of `treehash`, xmss_core.c:62-83. -/
def treehashMergeT (H : Bytes → Bytes) (p : Params) (pubSeed : Bytes) (leafIdx idx : Nat) :
    Bytes → Nat → List (Bytes × Nat) → List Bytes → Addr → TrG κ (List (Bytes × Nat) × List Bytes × Addr)
  | node, h, [], auth, addr => pure ([(node, h)], auth, addr)
  | node, h, (node2, h2) :: rest, auth, addr =>
    if h = h2 then do
      let treeIdx := idx >>> (h + 1)
      let r ← thashHT H p (node2 ++ node) pubSeed (setTreeIndex (setTreeHeight addr h) treeIdx)
      let auth ← Tr.opt (if (leafIdx >>> (h + 1)) ^^^ 1 = treeIdx then setAuth auth (h + 1) r.1 else some auth)
      treehashMergeT H p pubSeed leafIdx idx r.1 (h + 1) rest auth r.2
    else pure ((node, h) :: (node2, h2) :: rest, auth, addr)

/-- The `for` loop of `treehash`, xmss_core.c:47-84. -/
def treehashLoopT (H : Bytes → Bytes) (p : Params) (skSeed pubSeed : Bytes) (leafIdx : Nat) :
    Nat → Nat → List (Bytes × Nat) → List Bytes → (ots ltree node : Addr) → TrG κ (List (Bytes × Nat) × List Bytes)
  | 0, _, stack, auth, _, _, _ => pure (stack, auth)
  | k + 1, idx, stack, auth, otsAddr, ltreeAddr, nodeAddr => do
    let ltreeAddr := setLtreeAddr ltreeAddr idx
    let otsAddr := setOtsAddr otsAddr idx
    let r ← genLeafWotsT H p skSeed pubSeed ltreeAddr otsAddr
    if p.tree_height + 1 ≤ stack.length then Tr.opt none
    else
      let auth ← Tr.opt (if leafIdx ^^^ 1 = idx then setAuth auth 0 r.1 else some auth)
      let s ← treehashMergeT H p pubSeed leafIdx idx r.1 0 stack auth nodeAddr
      treehashLoopT H p skSeed pubSeed leafIdx k (idx + 1) s.1 s.2.1 r.2.2 r.2.1 s.2.2

/-- `treehash`, xmss_core.c:19-86. -/
def treehashT (H : Bytes → Bytes) (p : Params) (skSeed pubSeed : Bytes) (leafIdx : Nat) (subtree : Addr) (auth0 : List Bytes) :
    TrG κ (Bytes × List Bytes) := do
  let otsAddr := setType (copySubtreeAddr Addr.zero subtree) typeOts
  let ltreeAddr := setType (copySubtreeAddr Addr.zero subtree) typeLtree
  let nodeAddr := setType (copySubtreeAddr Addr.zero subtree) typeHashtree
  let r ← treehashLoopT H p skSeed pubSeed leafIdx (2 ^ p.tree_height) 0 [] auth0 otsAddr ltreeAddr nodeAddr
  match r.1.getLast? with
  | none => Tr.opt none
  | some top => pure (top.1, r.2)

/-! ### xmss_core.c and xmssmt_core_sign_open -/

/-- `xmssmt_core_seed_keypair`, xmss_core.c:134-161. -/
def coreSeedKeypairT (H : Bytes → Bytes) (p : Params) (pk sk seed : Bytes) : TrG κ (Bytes × Bytes) := do
  let top := setLayerAddr Addr.zero (p.d - 1)
  let sk ← Tr.opt (wr sk 0 (List.replicate p.index_bytes 0))
  let seed2 ← Tr.opt (rd seed 0 (2 * p.n))
  let sk ← Tr.opt (wr sk p.index_bytes seed2)
  let seed3 ← Tr.opt (rd seed (2 * p.n) p.n)
  let sk ← Tr.opt (wr sk (p.index_bytes + 3 * p.n) seed3)
  let pubSeed ← Tr.opt (rd sk (p.index_bytes + 3 * p.n) p.n)
  let pk ← Tr.opt (wr pk p.n pubSeed)
  let skSeed ← Tr.opt (rd sk p.index_bytes p.n)
  let pubSeed' ← Tr.opt (rd pk p.n p.n)
  let r ← treehashT H p skSeed pubSeed' 0 top (List.replicate p.tree_height (List.replicate p.n 0))
  let pk ← Tr.opt (wr pk 0 r.1)
  let root ← Tr.opt (rd pk 0 p.n)
  let sk ← Tr.opt (wr sk (p.index_bytes + 2 * p.n) root)
  pure (pk, sk)

/-- The loop over the layers in `xmssmt_core_sign`, xmss_core.c:253-270. -/
def signLayersT (H : Bytes → Bytes) (p : Params) (skSeed pubSeed : Bytes) :
    Nat → Nat → Nat → Addr → Bytes → Bytes → Nat → TrG κ Bytes
  | 0, _, _, _, _, sm, _ => pure sm
  | k + 1, i, idx, otsAddr, root, sm, off => do
    let idxLeaf ← Tr.opt (leafOf p idx)
    let idx := idx >>> p.tree_height
    let otsAddr := setLayerAddr otsAddr i
    let otsAddr := setTreeAddr otsAddr idx
    let otsAddr := setOtsAddr otsAddr idxLeaf
    let w ← wotsSignT H p root skSeed pubSeed otsAddr
    let sm ← Tr.opt (wr sm off w.1.flatten)
    let off := off + p.wots_sig_bytes
    let old ← Tr.opt (rd sm off (p.tree_height * p.n))
    let t ← treehashT H p skSeed pubSeed idxLeaf w.2 (chunks p.n p.tree_height old)
    let sm ← Tr.opt (wr sm off t.2.flatten)
    signLayersT H p skSeed pubSeed k (i + 1) idx w.2 t.1 sm (off + p.tree_height * p.n)

/-- `xmssmt_core_sign`, second part, xmss_core.c:233-272. -/
def coreSignBodyT (H : Bytes → Bytes) (p : Params) (sk sm : Bytes) (mlen idx : Nat) : TrG κ SignOut := do
  let skIdx ← Tr.opt (rd sk 0 p.index_bytes)
  let sm ← Tr.opt (wr sm 0 skIdx)
  let sk ← Tr.opt (wr sk 0 (ullToBytes p.index_bytes (idx + 1)))
  let skSeed ← Tr.opt (rd sk p.index_bytes p.n)
  let skPrf ← Tr.opt (rd sk (p.index_bytes + p.n) p.n)
  let pubRoot ← Tr.opt (rd sk (p.index_bytes + 2 * p.n) p.n)
  let pubSeed ← Tr.opt (rd sk (p.index_bytes + 3 * p.n) p.n)
  let r ← prfT H p (ullToBytes 32 idx) skPrf
  let sm ← Tr.opt (wr sm p.index_bytes r)
  let R ← Tr.opt (rd sm p.index_bytes p.n)
  if p.sig_bytes < p.padding_len + 3 * p.n then Tr.opt none
  else
    let hm ← hashMessageT H p R pubRoot idx sm (p.sig_bytes - p.padding_len - 3 * p.n) mlen
    let sm ← signLayersT H p skSeed pubSeed p.d 0 idx (setType Addr.zero typeOts) hm.1 hm.2 (p.index_bytes + p.n)
    pure { ret := 0, sk := sk, sm := sm, smlen := p.sig_bytes + mlen }

/-- `xmssmt_core_sign`, xmss_core.c:183-273. -/
def coreSignT (H : Bytes → Bytes) (p : Params) (sk sm m : Bytes) : TrG κ SignOut := do
  let sm ← Tr.opt (wr sm p.sig_bytes m)
  let idxBytes ← Tr.opt (rd sk 0 p.index_bytes)
  let idx ← Tr.opt (bytesToUll idxBytes)
  if 64 ≤ p.full_height then Tr.opt none
  else
    let last := 2 ^ p.full_height - 1
    let sk ← Tr.opt (if last ≤ idx then wipeKey p sk else some sk)
    if last < idx ∨ (p.full_height = 64 ∧ idx = last) then
      pure { ret := -2, sk := sk, sm := sm, smlen := p.sig_bytes + m.length }
    else coreSignBodyT H p sk sm m.length idx

/-- The loop over the subtrees in `xmssmt_core_sign_open`, xmss_commons.c:175-201. -/
def openLayersT (H : Bytes → Bytes) (p : Params) (pubSeed sm : Bytes) :
    Nat → Nat → Nat → (ots ltree node : Addr) → Bytes → Nat → TrG κ Bytes
  | 0, _, _, _, _, _, root, _ => pure root
  | k + 1, i, idx, otsAddr, ltreeAddr, nodeAddr, root, off => do
    let idxLeaf ← Tr.opt (leafOf p idx)
    let idx := idx >>> p.tree_height
    let otsAddr := setLayerAddr otsAddr i
    let ltreeAddr := setLayerAddr ltreeAddr i
    let nodeAddr := setLayerAddr nodeAddr i
    let ltreeAddr := setTreeAddr ltreeAddr idx
    let otsAddr := setTreeAddr otsAddr idx
    let nodeAddr := setTreeAddr nodeAddr idx
    let otsAddr := setOtsAddr otsAddr idxLeaf
    let sig ← Tr.opt (rd sm off (p.wots_len * p.n))
    let w ← wotsPkFromSigT H p (chunks p.n p.wots_len sig) root pubSeed otsAddr
    let off := off + p.wots_sig_bytes
    let ltreeAddr := setLtreeAddr ltreeAddr idxLeaf
    let l ← lTreeT H p w.1 pubSeed ltreeAddr
    let auth ← Tr.opt (rd sm off (p.tree_height * p.n))
    let r ← computeRootT H p l.1 idxLeaf (chunks p.n p.tree_height auth) pubSeed nodeAddr
    openLayersT H p pubSeed sm k (i + 1) idx w.2 l.2 r.2 r.1 (off + p.tree_height * p.n)

/-- `xmssmt_core_sign_open`, xmss_commons.c:136-215. -/
def coreSignOpenT (H : Bytes → Bytes) (p : Params) (m sm : Bytes) (smlen : Nat) (pk : Bytes) : TrG κ OpenOut := do
  let pubRoot ← Tr.opt (rd pk 0 p.n)
  let pubSeed ← Tr.opt (rd pk p.n p.n)
  let mlen := (smlen + 2 ^ 64 - p.sig_bytes) % 2 ^ 64
  let idxBytes ← Tr.opt (rd sm 0 p.index_bytes)
  let idx ← Tr.opt (bytesToUll idxBytes)
  let msg ← Tr.opt (rd sm p.sig_bytes mlen)
  let m ← Tr.opt (wr m p.sig_bytes msg)
  if p.sig_bytes < p.padding_len + 3 * p.n then Tr.opt none
  else
    let R ← Tr.opt (rd sm p.index_bytes p.n)
    let hm ← hashMessageT H p R pubRoot idx m (p.sig_bytes - p.padding_len - 3 * p.n) mlen
    let m := hm.2
    let otsAddr := setType Addr.zero typeOts
    let ltreeAddr := setType Addr.zero typeLtree
    let nodeAddr := setType Addr.zero typeHashtree
    let root ← openLayersT H p pubSeed sm p.d 0 idx otsAddr ltreeAddr nodeAddr hm.1 (p.index_bytes + p.n)
    if root ≠ pubRoot then
      let m ← Tr.opt (wr m 0 (List.replicate mlen 0))
      pure { ret := -1, m := m, mlen := 0 }
    else
      let msg ← Tr.opt (rd sm (p.index_bytes + p.n + p.d * (p.wots_sig_bytes + p.tree_height * p.n)) mlen)
      let m ← Tr.opt (wr m 0 msg)
      pure { ret := 0, m := m, mlen := mlen }

/-! ### xmss.c -/

/-- `xmss_keypair` / `xmssmt_keypair`, xmss.c:10-26, 62-75. -/
def apiKeypairT (P : Prims) (parse : Nat → Option Params) (pk sk : Bytes) (oid : Nat) (seed : Nat → Bytes) : TrG κ (Int × Bytes × Bytes) :=
  match parse oid with
  | none => pure (-1, pk, sk)
  | some p => do
    let pk ← Tr.opt (wr pk 0 (oidBytes oid))
    let sk ← Tr.opt (wr sk 0 (oidBytes oid))
    let H ← Tr.opt (coreHash P p.func p.n)
    let r ← coreSeedKeypairT H p (pk.drop oidLen) (sk.drop oidLen) (seed p.n)
    pure (0, pk.take oidLen ++ r.1, sk.take oidLen ++ r.2)

/-- `xmss_sign` / `xmssmt_sign`, xmss.c:28-43, 77-92. -/
def apiSignT (P : Prims) (parse : Nat → Option Params) (sk sm : Bytes) (smlen0 : Nat) (m : Bytes) : TrG κ SignOut := do
  let oid ← Tr.opt (readOid sk)
  match parse oid with
  | none => pure { ret := -1, sk := sk, sm := sm, smlen := smlen0 }
  | some p =>
    let H ← Tr.opt (coreHash P p.func p.n)
    let r ← coreSignT H p (sk.drop oidLen) sm m
    pure { r with sk := sk.take oidLen ++ r.sk }

/-- `xmss_sign_open` / `xmssmt_sign_open`, xmss.c:45-60, 94-109. -/
def apiOpenT (P : Prims) (parse : Nat → Option Params) (m : Bytes) (mlen0 : Nat) (sm : Bytes) (smlen : Nat) (pk : Bytes) : TrG κ OpenOut := do
  let oid ← Tr.opt (readOid pk)
  match parse oid with
  | none => pure { ret := -1, m := m, mlen := mlen0 }
  | some p =>
    let H ← Tr.opt (coreHash P p.func p.n)
    coreSignOpenT H p m sm smlen (pk.drop oidLen)

end Xmss
