import Verif.Model.Trace
import Verif.Model.FastCore
/-
The functions of the fast implementation (xmss_core_fast.c) once more, with the record of the calls of `core_hash` (hash.c:25) as in
Model/Trace.

Every function here is the function of the same name in Model/Bds, FastCore with the calls recorded; that it computes the same is proved
for each (Proof/TraceFast).
-/
namespace Xmss

variable {κ : Type} [Rec κ]

/-- The `while` loop xmss_core_fast.c:257-275 and its copy 409-428. -/
def mergeLoopT (H : Bytes → Bytes) (p : Params) (pubSeed : Bytes) (idx : Nat) :
    Nat → BdsState → Addr → TrG κ (BdsState × Addr)
  | 0, s, addr => pure (s, addr)
  | fuel + 1, s, addr =>
    if s.stackoffset ≤ 1 then pure (s, addr)
    else do
      let l1 ← Tr.opt s.stacklevels[s.stackoffset - 1]?
      let l2 ← Tr.opt s.stacklevels[s.stackoffset - 2]?
      if l1 ≠ l2 then pure (s, addr)
      else do
        let top ← Tr.opt s.stack[s.stackoffset - 1]?
        let s ← Tr.opt (storeNode p s idx l1 top)
        let left ← Tr.opt s.stack[s.stackoffset - 2]?
        let r ← thashHT H p (left ++ top) pubSeed (setTreeIndex (setTreeHeight addr l1) (idx >>> (l1 + 1)))
        let stack ← Tr.opt (setA s.stack (s.stackoffset - 2) r.1)
        let levels ← Tr.opt (setA s.stacklevels (s.stackoffset - 2) (l2 + 1))
        mergeLoopT H p pubSeed idx fuel
          { s with stack := stack, stacklevels := levels, stackoffset := s.stackoffset - 1 } r.2

/-- The body of the `for` loop of `treehash_init` (xmss_core_fast.c:247-276) and of `bds_state_update` (400-428). -/
def addLeafT (H : Bytes → Bytes) (p : Params) (skSeed pubSeed : Bytes) (idx : Nat) (s : BdsState)
    (ltree ots node : Addr) : TrG κ (BdsState × Addr × Addr × Addr) := do
  let g ← genLeafWotsT H p skSeed pubSeed (setLtreeAddr ltree idx) (setOtsAddr ots idx)
  let stack ← Tr.opt (setA s.stack s.stackoffset g.1)
  let levels ← Tr.opt (setA s.stacklevels s.stackoffset 0)
  let s := { s with stack := stack, stacklevels := levels, stackoffset := s.stackoffset + 1, leaves := s.leaves + 1 }
  let s ← Tr.opt (if 0 < p.insts ∧ idx = 3 then do
      let stale ← s.stack[s.stackoffset]?
      let t ← s.treehash[0]?
      some { s with treehash := s.treehash.set 0 { t with node := stale } }
    else some s : Option BdsState)
  let r ← mergeLoopT H p pubSeed idx s.stackoffset s node
  pure (r.1, g.2.1, g.2.2, r.2)

/-- `for (; idx < lastnode; idx++)` of `treehash_init`, xmss_core_fast.c:247-277. -/
def addLeavesT (H : Bytes → Bytes) (p : Params) (skSeed pubSeed : Bytes) :
    Nat → Nat → BdsState → (ltree ots node : Addr) → TrG κ BdsState
  | 0, _, s, _, _, _ => pure s
  | k + 1, idx, s, ltree, ots, node => do
    let r ← addLeafT H p skSeed pubSeed idx s ltree ots node
    addLeavesT H p skSeed pubSeed k (idx + 1) r.1 r.2.1 r.2.2.1 r.2.2.2

/-- `treehash_init`, xmss_core_fast.c:214-282. -/
def treehashInitT (H : Bytes → Bytes) (p : Params) (s : BdsState) (skSeed pubSeed : Bytes) (addr : Addr) :
    TrG κ (Bytes × BdsState) := do
  let w := { s with
    treehash := resetInsts 0 s.treehash
    stack := List.replicate (p.tree_height + 1) (List.replicate p.n 0)
    stacklevels := List.replicate (p.tree_height + 1) 0
    stackoffset := 0 }
  let w ← addLeavesT H p skSeed pubSeed (1 <<< p.tree_height) 0 w (ltreeOf addr) (otsOf addr) (nodeOf addr)
  let root ← Tr.opt w.stack[0]?
  pure (root, { w with stack := s.stack, stacklevels := s.stacklevels, stackoffset := s.stackoffset })

/-- The `while` loop of `treehash_update`, xmss_core_fast.c:308-317. -/
def updateMergeT (H : Bytes → Bytes) (p : Params) (pubSeed : Bytes) (s : BdsState) (nextIdx : Nat) :
    Nat → Nat → Nat → Bytes → Addr → TrG κ (Nat × Nat × Nat × Bytes)
  | 0, so, nh, node, _ => pure (0, so, nh, node)
  | su + 1, so, nh, node, addr =>
    if so = 0 then Tr.opt none
    else do
      let l ← Tr.opt s.stacklevels[so - 1]?
      if l = nh then do
        let left ← Tr.opt s.stack[so - 1]?
        let r ← thashHT H p (left ++ node) pubSeed (setTreeIndex (setTreeHeight addr nh) (nextIdx >>> (nh + 1)))
        updateMergeT H p pubSeed s nextIdx su (so - 1) (nh + 1) r.1 r.2
      else pure (su + 1, so, nh, node)

/-- `treehash_update` on `treehash[lvl]`, xmss_core_fast.c:284-329. -/
def treehashUpdateT (H : Bytes → Bytes) (p : Params) (s : BdsState) (lvl : Nat) (skSeed pubSeed : Bytes) (addr : Addr) :
    TrG κ BdsState := do
  let t ← Tr.opt s.treehash[lvl]?
  let g ← genLeafWotsT H p skSeed pubSeed (setLtreeAddr (ltreeOf addr) t.nextIdx) (setOtsAddr (otsOf addr) t.nextIdx)
  let r ← updateMergeT H p pubSeed s t.nextIdx t.stackusage s.stackoffset 0 g.1 (nodeOf addr)
  if r.2.2.1 = t.h then
    pure { s with
      stackoffset := r.2.1
      treehash := s.treehash.set lvl { t with node := r.2.2.2, completed := 1, stackusage := r.1 }
      leaves := s.leaves + 1 }
  else do
    let stack ← Tr.opt (setA s.stack r.2.1 r.2.2.2)
    let levels ← Tr.opt (setA s.stacklevels r.2.1 r.2.2.1)
    pure { s with
      stack := stack
      stacklevels := levels
      stackoffset := r.2.1 + 1
      treehash := s.treehash.set lvl { t with stackusage := r.1 + 1, nextIdx := t.nextIdx + 1 }
      leaves := s.leaves + 1 }

/-- `for (j = 0; j < updates; j++)` of `bds_treehash_update`, xmss_core_fast.c:345-368. -/
def bdsUpdateLoopT (H : Bytes → Bytes) (p : Params) (skSeed pubSeed : Bytes) (addr : Addr) :
    Nat → BdsState → Nat → TrG κ (BdsState × Nat)
  | 0, s, used => pure (s, used)
  | j + 1, s, used => do
    let level ← Tr.opt (pickLevel p s)
    if level = p.insts then pure (s, used)
    else do
      let s ← treehashUpdateT H p s level skSeed pubSeed addr
      bdsUpdateLoopT H p skSeed pubSeed addr j s (used + 1)

/-- `bds_treehash_update`, xmss_core_fast.c:335-370. -/
def bdsTreehashUpdateT (H : Bytes → Bytes) (p : Params) (s : BdsState) (updates : Nat) (skSeed pubSeed : Bytes)
    (addr : Addr) : TrG κ (BdsState × Nat) := do
  let r ← bdsUpdateLoopT H p skSeed pubSeed addr updates s 0
  pure (r.1, charToUnsigned (updates - r.2))

/-- `bds_state_update`, xmss_core_fast.c:376-432. -/
def bdsStateUpdateT (H : Bytes → Bytes) (p : Params) (s : BdsState) (skSeed pubSeed : Bytes) (addr : Addr) :
    TrG κ BdsState := do
  if s.nextLeaf = 1 <<< p.tree_height then pure s
  else do
    let r ← addLeafT H p skSeed pubSeed s.nextLeaf s (ltreeOf addr) (otsOf addr) (nodeOf addr)
    pure { r.1 with nextLeaf := r.1.nextLeaf + 1 }

/-- `bds_round`, xmss_core_fast.c:439-508. -/
def bdsRoundT (H : Bytes → Bytes) (p : Params) (s : BdsState) (leafIdx : Nat) (skSeed pubSeed : Bytes) (addr : Addr) :
    TrG κ BdsState := do
  let tau := tauLoop leafIdx p.tree_height 0
  let buf ← Tr.opt (if 0 < tau then do
      let a ← s.auth[tau - 1]?
      let k ← s.keep[(tau - 1) >>> 1]?
      some (a ++ k)
    else some [] : Option Bytes)
  let s ← Tr.opt (if (leafIdx >>> (tau + 1)) &&& 1 = 0 ∧ tau < p.tree_height - 1 then do
      let a ← s.auth[tau]?
      let keep ← setA s.keep (tau >>> 1) a
      some { s with keep := keep }
    else some s : Option BdsState)
  if tau = 0 then do
    let g ← genLeafWotsT H p skSeed pubSeed (setLtreeAddr (ltreeOf addr) leafIdx) (setOtsAddr (otsOf addr) leafIdx)
    let auth ← Tr.opt (setA s.auth 0 g.1)
    pure { s with auth := auth, leaves := s.leaves + 1 }
  else do
    let r ← thashHT H p buf pubSeed (setTreeIndex (setTreeHeight (nodeOf addr) (tau - 1)) (leafIdx >>> tau))
    let auth ← Tr.opt (setA s.auth tau r.1)
    let s ← Tr.opt (authLoop p leafIdx tau 0 { s with auth := auth })
    Tr.opt (restartLoop p leafIdx (if tau < p.insts then tau else p.insts) 0 s)

/-! ### XMSS -/

/-- `xmss_core_keypair`, xmss_core_fast.c:538-575. -/
def fastXmssKeypairT (H : Bytes → Bytes) (p : Params) (pk sk seed : Bytes) : TrG κ (Bytes × Bytes) := do
  if 31 ≤ p.tree_height then Tr.opt none
  else do
  let ds ← Tr.opt (deserializeStates p sk)
  let s ← Tr.opt ds.1[0]?
  let s := { s with stackoffset := 0, nextLeaf := 0 }
  let sk ← Tr.opt (wr sk 0 [0, 0, 0, 0])
  let seed2 ← Tr.opt (rd seed 0 (2 * p.n))
  let sk ← Tr.opt (wr sk p.index_bytes seed2)
  let seed3 ← Tr.opt (rd seed (2 * p.n) p.n)
  let sk ← Tr.opt (wr sk (p.index_bytes + 3 * p.n) seed3)
  let pub ← Tr.opt (rd sk (p.index_bytes + 3 * p.n) p.n)
  let pk ← Tr.opt (wr pk p.n pub)
  let skSeed ← Tr.opt (rd sk p.index_bytes p.n)
  let pubSeed ← Tr.opt (rd sk (p.index_bytes + 3 * p.n) p.n)
  let r ← treehashInitT H p s skSeed pubSeed Addr.zero
  let pk ← Tr.opt (wr pk 0 r.1)
  let root ← Tr.opt (rd pk 0 p.n)
  let sk ← Tr.opt (wr sk (p.index_bytes + 2 * p.n) root)
  let sk ← Tr.opt (serializeStates p sk [r.2] ds.2)
  pure (pk, sk)

/-- `xmss_core_sign`, xmss_core_fast.c:624-720. -/
def fastXmssSignBodyT (H : Bytes → Bytes) (p : Params) (sk sm m : Bytes) (s : BdsState) (sigs : List Bytes) (idx : Nat) :
    TrG κ FastOut := do
  let skSeed ← Tr.opt (rd sk p.index_bytes p.n)
  let skPrf ← Tr.opt (rd sk (p.index_bytes + p.n) p.n)
  let pubSeed ← Tr.opt (rd sk (p.index_bytes + 3 * p.n) p.n)
  let sk ← Tr.opt (wr sk 0 (ullToBytes 4 (idx + 1)))
  let R ← prfT H p (ullToBytes 32 idx) skPrf
  let sm ← Tr.opt (wr sm p.sig_bytes m)
  let pubRoot ← Tr.opt (rd sk (p.index_bytes + 2 * p.n) p.n)
  if p.sig_bytes < p.padding_len + 3 * p.n then Tr.opt none
  else do
  let hm ← hashMessageT H p R pubRoot idx sm (p.sig_bytes - p.padding_len - 3 * p.n) m.length
  let sm ← Tr.opt (wr hm.2 0 (ullToBytes 4 idx))
  let sm ← Tr.opt (wr sm 4 R)
  let otsAddr := setOtsAddr (setType Addr.zero typeOts) idx
  let w ← wotsSignT H p hm.1 skSeed pubSeed otsAddr
  let sm ← Tr.opt (wr sm (4 + p.n) w.1.flatten)
  let sm ← Tr.opt (wr sm (4 + p.n + p.wots_sig_bytes) s.auth.flatten)
  let s ← (if idx < (1 <<< p.tree_height) - 1 then do
      let s ← bdsRoundT H p s idx skSeed pubSeed w.2
      let r ← bdsTreehashUpdateT H p s (p.insts >>> 1) skSeed pubSeed w.2
      pure r.1
    else pure s : TrG κ BdsState)
  let sm ← Tr.opt (wr sm (4 + p.n + p.wots_sig_bytes + p.tree_height * p.n) m)
  let sk ← Tr.opt (serializeStates p sk [s] sigs)
  pure { ret := 0, sk := sk, sm := sm, smlen := 4 + p.n + p.wots_sig_bytes + p.tree_height * p.n + m.length,
         leaves := s.leaves }

/-- `xmss_core_sign` of the fast implementation, xmss_core_fast.c:584-720. -/
def fastXmssSignT (H : Bytes → Bytes) (p : Params) (sk sm : Bytes) (smlen0 : Nat) (m : Bytes) : TrG κ FastOut := do
  if 31 ≤ p.tree_height then Tr.opt none
  else do
  let ds ← Tr.opt (deserializeStates p sk)
  let s ← Tr.opt ds.1[0]?
  let ib ← Tr.opt (rd sk 0 4)
  let idx ← Tr.opt (bytesToUll ib)
  if 64 ≤ p.full_height then Tr.opt none
  else
    let last := 2 ^ p.full_height - 1
    if last ≤ idx then do
      let sk ← Tr.opt (wipeKey p sk)
      if last < idx ∨ (p.full_height = 64 ∧ idx = last) then
        pure { ret := -2, sk := sk, sm := sm, smlen := smlen0, leaves := 0 }
      else fastXmssSignBodyT H p sk sm m s.wipe (ds.2.map fun x => List.replicate x.length 0) idx
    else fastXmssSignBodyT H p sk sm m s ds.2 idx

/-! ### XMSS^MT -/

/-- Loop of `xmssmt_core_keypair`, xmss_core_fast.c:763-768. -/
def fastKeypairLoopT (H : Bytes → Bytes) (p : Params) (skSeed pubSeed : Bytes) :
    Nat → Nat → List BdsState → List Bytes → Addr → TrG κ (List BdsState × List Bytes × Addr)
  | 0, _, states, sigs, addr => pure (states, sigs, addr)
  | k + 1, i, states, sigs, addr => do
    let s ← Tr.opt states[i]?
    let r ← treehashInitT H p s skSeed pubSeed addr
    let states := states.set i r.2
    let addr := setLayerAddr addr (i + 1)
    let w ← wotsSignT H p r.1 skSeed pubSeed addr
    let sigs ← Tr.opt (setA sigs i w.1.flatten)
    fastKeypairLoopT H p skSeed pubSeed k (i + 1) states sigs w.2

/-- `xmssmt_core_keypair`, xmss_core_fast.c:727-776. -/
def fastXmssmtKeypairT (H : Bytes → Bytes) (p : Params) (pk sk seed : Bytes) : TrG κ (Bytes × Bytes) := do
  if 31 ≤ p.tree_height then Tr.opt none
  else do
  let ds ← Tr.opt (deserializeStates p sk)
  let states := ds.1.map (fun s => { s with stackoffset := 0, nextLeaf := 0 })
  let sk ← Tr.opt (wr sk 0 (List.replicate p.index_bytes 0))
  let seed2 ← Tr.opt (rd seed 0 (2 * p.n))
  let sk ← Tr.opt (wr sk p.index_bytes seed2)
  let seed3 ← Tr.opt (rd seed (2 * p.n) p.n)
  let sk ← Tr.opt (wr sk (p.index_bytes + 3 * p.n) seed3)
  let pub ← Tr.opt (rd sk (p.index_bytes + 3 * p.n) p.n)
  let pk ← Tr.opt (wr pk p.n pub)
  let skSeed ← Tr.opt (rd sk p.index_bytes p.n)
  let pubSeed ← Tr.opt (rd pk p.n p.n)
  let r ← fastKeypairLoopT H p skSeed pubSeed (p.d - 1) 0 states ds.2 (setLayerAddr Addr.zero 0)
  let s ← Tr.opt r.1[p.d - 1]?
  let t ← treehashInitT H p s skSeed pubSeed r.2.2
  let pk ← Tr.opt (wr pk 0 t.1)
  let root ← Tr.opt (rd pk 0 p.n)
  let sk ← Tr.opt (wr sk (p.index_bytes + 2 * p.n) root)
  let sk ← Tr.opt (serializeStates p sk (r.1.set (p.d - 1) t.2) r.2.1)
  pure (pk, sk)

/-- Branch of xmss_core_fast.c:944-961. -/
def mtStepInnerT (H : Bytes → Bytes) (p : Params) (skSeed pubSeed : Bytes) (idx i : Nat) (v : MtLocals) :
    TrG κ MtLocals := do
  let idxLeaf := (idx >>> (p.tree_height * i)) &&& ((1 <<< p.tree_height) - 1)
  let idxTree := idx >>> (p.tree_height * (i + 1))
  let addr := setTreeAddr (setLayerAddr v.addr i) idxTree
  let s ← Tr.opt v.states[i]?
  let s ← (if i = v.swap then bdsRoundT H p s idxLeaf skSeed pubSeed addr else pure s : TrG κ BdsState)
  let r ← bdsTreehashUpdateT H p s v.updates skSeed pubSeed addr
  let states := v.states.set i r.1
  let addr := setTreeAddr addr (idxTree + 1)
  if (1 + idxTree) * (1 <<< p.tree_height) + idxLeaf < 2 ^ (p.full_height - p.tree_height * i) ∧ 0 < i ∧ 0 < r.2 then do
    let next ← Tr.opt states[p.d + i]?
    if next.nextLeaf < 2 ^ p.full_height then do
      let next ← bdsStateUpdateT H p next skSeed pubSeed addr
      pure { v with states := states.set (p.d + i) next, updates := r.2 - 1, addr := addr }
    else pure { v with states := states, updates := r.2, addr := addr }
  else pure { v with states := states, updates := r.2, addr := addr }

/-- Branch of xmss_core_fast.c:962-979. -/
def mtStepSwapT (H : Bytes → Bytes) (p : Params) (skSeed pubSeed : Bytes) (idx i : Nat) (v : MtLocals) :
    TrG κ MtLocals := do
  let states ← Tr.opt (swapStates v.states i (p.d + i))
  let otsAddr := setLayerAddr v.otsAddr (i + 1)
  let otsAddr := setTreeAddr otsAddr ((idx + 1) >>> ((i + 2) * p.tree_height))
  let otsAddr := setOtsAddr otsAddr (((idx >>> ((i + 1) * p.tree_height)) + 1) &&& ((1 <<< p.tree_height) - 1))
  let cur ← Tr.opt states[i]?
  let root ← Tr.opt cur.stack[0]?
  let w ← wotsSignT H p root skSeed pubSeed otsAddr
  let sigs ← Tr.opt (setA v.sigs i w.1.flatten)
  let next ← Tr.opt states[p.d + i]?
  let states := states.set (p.d + i) { next with stackoffset := 0, nextLeaf := 0 }
  let states := states.set i { cur with treehash := cur.treehash.map (fun t => { t with completed := 1 }) }
  pure { states := states, sigs := sigs, updates := (v.updates + 2 ^ 32 - 1) % 2 ^ 32, swap := i + 1, addr := v.addr,
         otsAddr := w.2 }

/-- Body of the loop, xmss_core_fast.c:943-979. -/
def mtStepT (H : Bytes → Bytes) (p : Params) (skSeed pubSeed : Bytes) (idx i : Nat) (v : MtLocals) : TrG κ MtLocals :=
  if ¬ ((idx + 1) &&& ((1 <<< ((i + 1) * p.tree_height)) - 1) = 0) then mtStepInnerT H p skSeed pubSeed idx i v
  else if idx < 2 ^ p.full_height - 1 then mtStepSwapT H p skSeed pubSeed idx i v
  else pure v

/-- The loop, xmss_core_fast.c:942-980. -/
def mtLoopT (H : Bytes → Bytes) (p : Params) (skSeed pubSeed : Bytes) (idx : Nat) : Nat → Nat → MtLocals → TrG κ MtLocals
  | 0, _, v => pure v
  | k + 1, i, v => do
    let v ← mtStepT H p skSeed pubSeed idx i v
    mtLoopT H p skSeed pubSeed idx k (i + 1) v

/-- `xmssmt_core_sign`, xmss_core_fast.c:847-988. -/
def fastXmssmtSignBodyT (H : Bytes → Bytes) (p : Params) (sk sm m : Bytes) (states : List BdsState) (sigs : List Bytes)
    (idx : Nat) : TrG κ FastOut := do
  let skSeed ← Tr.opt (rd sk p.index_bytes p.n)
  let skPrf ← Tr.opt (rd sk (p.index_bytes + p.n) p.n)
  let pubSeed ← Tr.opt (rd sk (p.index_bytes + 3 * p.n) p.n)
  let sk ← Tr.opt (wr sk 0 (ullToBytes p.index_bytes (idx + 1)))
  let R ← prfT H p (ullToBytes 32 idx) skPrf
  let sm ← Tr.opt (wr sm p.sig_bytes m)
  let pubRoot ← Tr.opt (rd sk (p.index_bytes + 2 * p.n) p.n)
  if p.sig_bytes < p.padding_len + 3 * p.n then Tr.opt none
  else do
  let hm ← hashMessageT H p R pubRoot idx sm (p.sig_bytes - p.padding_len - 3 * p.n) m.length
  let sm ← Tr.opt (wr hm.2 0 (ullToBytes p.index_bytes idx))
  let sm ← Tr.opt (wr sm p.index_bytes R)
  let idxTree := idx >>> p.tree_height
  let idxLeaf := idx &&& ((1 <<< p.tree_height) - 1)
  let otsAddr := setOtsAddr (setTreeAddr (setLayerAddr (setType Addr.zero typeOts) 0) idxTree) idxLeaf
  let w ← wotsSignT H p hm.1 skSeed pubSeed otsAddr
  let off := p.index_bytes + p.n
  let sm ← Tr.opt (wr sm off w.1.flatten)
  let off := off + p.wots_sig_bytes
  let s0 ← Tr.opt states[0]?
  let sm ← Tr.opt (wr sm off s0.auth.flatten)
  let c ← Tr.opt (mtCopyLoop p states sigs (p.d - 1) 1 sm (off + p.tree_height * p.n))
  let addr := setTreeAddr Addr.zero (idxTree + 1)
  let states ← (if (1 + idxTree) * (1 <<< p.tree_height) + idxLeaf < 2 ^ p.full_height then do
      let next ← Tr.opt states[p.d]?
      let next ← bdsStateUpdateT H p next skSeed pubSeed addr
      pure (states.set p.d next)
    else pure states : TrG κ (List BdsState))
  let v ← mtLoopT H p skSeed pubSeed idx p.d 0
    { states := states, sigs := sigs, updates := p.insts >>> 1, swap := 0, addr := addr, otsAddr := w.2 }
  let sm ← Tr.opt (wr c.1 c.2 m)
  let sk ← Tr.opt (serializeStates p sk v.states v.sigs)
  pure { ret := 0, sk := sk, sm := sm, smlen := c.2 + m.length, leaves := totalLeaves v.states }

/-- `xmssmt_core_sign` of the fast implementation, xmss_core_fast.c:785-988. -/
def fastXmssmtSignT (H : Bytes → Bytes) (p : Params) (sk sm : Bytes) (smlen0 : Nat) (m : Bytes) : TrG κ FastOut := do
  if 31 ≤ p.tree_height then Tr.opt none
  else do
  let ds ← Tr.opt (deserializeStates p sk)
  let ib ← Tr.opt (rd sk 0 p.index_bytes)
  let idx ← Tr.opt (bytesToUll ib)
  if 64 ≤ p.full_height then Tr.opt none
  else
    let last := 2 ^ p.full_height - 1
    if last ≤ idx then do
      let sk ← Tr.opt (wipeKey p sk)
      if last < idx ∨ (p.full_height = 64 ∧ idx = last) then
        pure { ret := -2, sk := sk, sm := sm, smlen := smlen0, leaves := 0 }
      else fastXmssmtSignBodyT H p sk sm m (ds.1.map BdsState.wipe) (ds.2.map fun x => List.replicate x.length 0) idx
    else fastXmssmtSignBodyT H p sk sm m ds.1 ds.2 idx

/-! ### xmss.c linked with xmss_core_fast.c -/

/-- `xmss_keypair` / `xmssmt_keypair`, xmss.c:10-26, 62-75. -/
def apiKeypairFastT (P : Prims) (parse : Nat → Option Params)
    (core : (Bytes → Bytes) → Params → Bytes → Bytes → Bytes → TrG κ (Bytes × Bytes))
    (pk sk : Bytes) (oid : Nat) (seed : Nat → Bytes) : TrG κ (Int × Bytes × Bytes) :=
  match parse oid with
  | none => pure (-1, pk, sk)
  | some p => do
    let pk ← Tr.opt (wr pk 0 (oidBytes oid))
    let sk ← Tr.opt (wr sk 0 (oidBytes oid))
    let H ← Tr.opt (coreHash P p.func p.n)
    let r ← core H p (pk.drop oidLen) (sk.drop oidLen) (seed p.n)
    pure (0, pk.take oidLen ++ r.1, sk.take oidLen ++ r.2)

/-- `xmss_sign` / `xmssmt_sign`, xmss.c:28-43, 77-92. -/
def apiSignFastT (P : Prims) (parse : Nat → Option Params)
    (core : (Bytes → Bytes) → Params → Bytes → Bytes → Nat → Bytes → TrG κ FastOut)
    (sk sm : Bytes) (smlen0 : Nat) (m : Bytes) : TrG κ FastOut := do
  let oid ← Tr.opt (readOid sk)
  match parse oid with
  | none => pure { ret := -1, sk := sk, sm := sm, smlen := smlen0, leaves := 0 }
  | some p =>
    let H ← Tr.opt (coreHash P p.func p.n)
    let r ← core H p (sk.drop oidLen) sm smlen0 m
    pure { r with sk := sk.take oidLen ++ r.sk }

end Xmss
