import Verif.Model.Low
import Verif.Spec.FastKeys
/-
The lower model (see Low.lean) continued: xmss_core_fast.c, and xmss.c linked with it, on an explicit memory with C integers.

* The BDS states lie inside the secret key: `stack`, `stacklevels`, `auth`, `keep`, `node`, `retain` and `wots_sigs` are pointers
  into it.  The structures `bds_state` and `treehash_inst` (local arrays of the two entry functions, only accessed by index) are values.
* Reading an uninitialised byte is undefined (`none`), except by the `memcpy` of lines 254 and 406, which copies it as it is.
-/
namespace Xmss.Low

/-- `treehash_inst`, xmss_core_fast.c:14-20. -/
structure LInst where
  h : Nat
  nextIdx : Nat
  stackusage : Nat
  completed : Nat
  node : Ptr
deriving DecidableEq, Repr

/-- `bds_state`, xmss_core_fast.c:22-31. -/
structure LState where
  stack : Ptr
  stackoffset : Nat
  stacklevels : Ptr
  auth : Ptr
  keep : Ptr
  treehash : List LInst
  retain : Ptr
  nextLeaf : Nat
deriving DecidableEq, Repr

/-- Conversion to `unsigned char`, e.g. xmss_core_fast.c:111. -/
def w8 (x : Nat) : Nat := x % 256

/-- `params->tree_height - params->bds_k`, e.g. xmss_core_fast.c:110. -/
def instsL (p : Params) : Nat := usub p.tree_height p.bds_k

/-- `((1 << params->bds_k) - params->bds_k - 1)`, e.g. xmss_core_fast.c:128. -/
def retainL (p : Params) : Option Nat := if 31 ≤ p.bds_k then none else some (usub (usub (1 <<< p.bds_k) p.bds_k) 1)

/-- `x >> k` on a 64-bit value, e.g. xmss_core_fast.c:313, 902. -/
def shr64 (x k : Nat) : Option Nat := if 64 ≤ k then none else some (x >>> k)

/-- `1ULL << k`, e.g. xmss_core_fast.c:836. -/
def one64 (k : Nat) : Option Nat := if 64 ≤ k then none else some (2 ^ k)

/-- `x >> k` on an `int` (arithmetic shift), e.g. xmss_core_fast.c:411; as a 32-bit pattern. -/
def sar32 (x k : Nat) : Option Nat := if 32 ≤ k then none else some (ofInt (asInt x >>> k))

/-! ### The states in the secret key -/

/-- Inner loop of `xmssmt_deserialize_state`, xmss_core_fast.c:110-125: `k` instances remain, `sk` is at `q`. -/
def readInstsL (p : Params) (m : Mem) : Nat → Ptr → Option (List LInst × Ptr)
  | 0, q => some ([], q)
  | k + 1, q => do
    let h ← bytesToUll m q 1
    let q : Ptr := q + 1
    let nextIdx ← bytesToUll m q 4
    let q : Ptr := q + 4
    let stackusage ← bytesToUll m q 1
    let q : Ptr := q + 1
    let completed ← bytesToUll m q 1
    let q : Ptr := q + 1
    let node : Ptr := q
    let q : Ptr := q + p.n
    let r ← readInstsL p m k q
    some ({ h := w8 h, nextIdx := nextIdx, stackusage := w8 stackusage, completed := w8 completed, node := node } :: r.1, r.2)

/-- Body of the loop of `xmssmt_deserialize_state`, xmss_core_fast.c:94-130; returns the state and `sk`. -/
def readStateL (p : Params) (m : Mem) (q : Ptr) : Option (LState × Ptr) := do
  let stack : Ptr := q
  let q : Ptr := q + w32 (w32 (p.tree_height + 1) * p.n)
  let stackoffset ← bytesToUll m q 4
  let q : Ptr := q + 4
  let stacklevels : Ptr := q
  let q : Ptr := q + w32 (p.tree_height + 1)
  let auth : Ptr := q
  let q : Ptr := q + w32 (p.tree_height * p.n)
  let keep : Ptr := q
  let q : Ptr := q + w32 ((p.tree_height >>> 1) * p.n)
  let r ← readInstsL p m (instsL p) q
  let retain : Ptr := r.2
  let ret ← retainL p
  let q : Ptr := r.2 + w32 (ret * p.n)
  let nextLeaf ← bytesToUll m q 4
  some ({ stack := stack, stackoffset := w32 stackoffset, stacklevels := stacklevels, auth := auth, keep := keep, treehash := r.1,
          retain := retain, nextLeaf := w32 nextLeaf }, q + 4)

/-- Outer loop of `xmssmt_deserialize_state`, xmss_core_fast.c:93-131: `k` states remain. -/
def readStatesL (p : Params) (m : Mem) : Nat → Ptr → Option (List LState × Ptr)
  | 0, q => some ([], q)
  | k + 1, q => do
    let s ← readStateL p m q
    let r ← readStatesL p m k s.2
    some (s.1 :: r.1, r.2)

/-- `xmssmt_deserialize_state`, xmss_core_fast.c:80-136; returns the states and `wots_sigs`. -/
def deserializeL (p : Params) (m : Mem) (sk : Ptr) : Option (List LState × Ptr) :=
  readStatesL p m (usub (w32 (2 * p.d)) 1) (sk + w32 (p.index_bytes + w32 (4 * p.n)))

/-- Inner loop of `xmssmt_serialize_state`, xmss_core_fast.c:57-71; returns the memory and `sk`. -/
def writeInstsL (p : Params) : List LInst → Ptr → Mem → Option (Mem × Ptr)
  | [], q, m => some (m, q)
  | t :: ts, q, m => do
    let m ← ullToBytes m q 1 t.h
    let q : Ptr := q + 1
    let m ← ullToBytes m q 4 t.nextIdx
    let q : Ptr := q + 4
    let m ← ullToBytes m q 1 t.stackusage
    let q : Ptr := q + 1
    let m ← ullToBytes m q 1 t.completed
    let q : Ptr := q + 1
    let q : Ptr := q + p.n
    writeInstsL p ts q m

/-- Body of the loop of `xmssmt_serialize_state`, xmss_core_fast.c:47-76; the inner loop runs over the
`tree_height - bds_k` instances of the state. -/
def writeStateL (p : Params) (s : LState) (q : Ptr) (m : Mem) : Option (Mem × Ptr) := do
  let q : Ptr := q + w32 (w32 (p.tree_height + 1) * p.n)
  let m ← ullToBytes m q 4 s.stackoffset
  let q : Ptr := q + 4
  let q : Ptr := q + w32 (p.tree_height + 1)
  let q : Ptr := q + w32 (p.tree_height * p.n)
  let q : Ptr := q + w32 ((p.tree_height >>> 1) * p.n)
  let r ← writeInstsL p s.treehash q m
  let ret ← retainL p
  let q : Ptr := r.2 + w32 (ret * p.n)
  let m ← ullToBytes r.1 q 4 s.nextLeaf
  some (m, q + 4)

/-- Outer loop of `xmssmt_serialize_state`, xmss_core_fast.c:46-77 (one round per state). -/
def writeStatesL (p : Params) : List LState → Ptr → Mem → Option Mem
  | [], _, m => some m
  | s :: ss, q, m => do
    let r ← writeStateL p s q m
    writeStatesL p ss r.2 r.1

/-- `xmssmt_serialize_state`, xmss_core_fast.c:38-78. -/
def serializeL (p : Params) (m : Mem) (sk : Ptr) (states : List LState) : Option Mem :=
  writeStatesL p states (sk + w32 (p.index_bytes + w32 (4 * p.n))) m

/-- `memswap`, xmss_core_fast.c:150-155. -/
def memswap (m : Mem) (a b t : Ptr) (len : Nat) : Option Mem := do
  let m ← memcpy m t a len
  let m ← memcpy m a b len
  memcpy m b t len

/-- The loop of `deep_state_swap`, xmss_core_fast.c:183-189: the nodes in memory; the scalars (swapped through `t` as well) are values. -/
def swapNodes (p : Params) (t : Ptr) : List LInst → List LInst → Mem → Option (List LInst × List LInst × Mem)
  | a :: as, b :: bs, m => do
    let m ← memswap m a.node b.node t p.n
    let r ← swapNodes p t as bs m
    some ({ b with node := a.node } :: r.1, { a with node := b.node } :: r.2.1, r.2.2)
  | [], [], m => some ([], [], m)
  | _, _, _ => none

/-- `deep_state_swap`, xmss_core_fast.c:165-193; returns the two structures and the memory.  `sizeof` of the scalars is at most 8,
so 8 bytes have to fit in `t`. -/
def deepStateSwap (p : Params) (m0 : Mem) (a b : LState) : Option (LState × LState × Mem) := do
  let ret ← retainL p
  let tlen := w32 ((if w32 (p.tree_height + 1) > ret then w32 (p.tree_height + 1) else ret) * p.n)
  let (t, m) ← alloc m0 tlen
  if tlen < 8 then none
  else do
    let m ← memswap m a.stack b.stack t (w32 (w32 (p.tree_height + 1) * p.n))
    let m ← memswap m a.stacklevels b.stacklevels t (w32 (p.tree_height + 1))
    let m ← memswap m a.auth b.auth t (w32 (p.tree_height * p.n))
    let m ← memswap m a.keep b.keep t (w32 ((p.tree_height >>> 1) * p.n))
    let r ← swapNodes p t a.treehash b.treehash m
    let m ← memswap r.2.2 a.retain b.retain t (w32 (ret * p.n))
    some ({ a with stackoffset := b.stackoffset, treehash := r.1, nextLeaf := b.nextLeaf },
      { b with stackoffset := a.stackoffset, treehash := r.2.1, nextLeaf := a.nextLeaf }, release m0 m)

/-! ### Tree traversal -/

/-- The levels of the nodes on a stack: `unsigned int stacklevels[height+1]` (xmss_core_fast.c:234) or `state->stacklevels`. -/
inductive Levels where
  | loc (arr : UArr)
  | mem (q : Ptr)

/-- Reading `stacklevels[i]`, xmss_core_fast.c:257, 409. -/
def Levels.get (lv : Levels) (m : Mem) (i : Nat) : Option Nat :=
  match lv with
  | .loc arr => uget arr i
  | .mem q => (load m (q + i) 1).map fun x => (x.headD 0).toNat

/-- Writing `stacklevels[i]`, xmss_core_fast.c:252, 273, 404, 426. -/
def Levels.set (lv : Levels) (m : Mem) (i v : Nat) : Option (Levels × Mem) :=
  match lv with
  | .loc arr => (uset arr i (w32 v)).map fun arr => (.loc arr, m)
  | .mem q => (store m (q + i) [UInt8.ofNat (w8 v)]).map fun m => (.mem q, m)

/-- Loop of `treehash_minheight_on_stack`, xmss_core_fast.c:201-205: `k` iterations remain, the next is `i`. -/
def minHeightLoopL (m : Mem) (s : LState) : Nat → Nat → Nat → Option Nat
  | 0, _, r => some r
  | k + 1, i, r => do
    let x ← load m (s.stacklevels + usub (usub s.stackoffset i) 1) 1
    minHeightLoopL m s k (i + 1) (if (x.headD 0).toNat < r then (x.headD 0).toNat else r)

/-- `treehash_minheight_on_stack`, xmss_core_fast.c:195-207. -/
def minHeightL (p : Params) (m : Mem) (s : LState) (t : LInst) : Option Nat := minHeightLoopL m s t.stackusage 0 p.tree_height

/-- The assignments of a right node, xmss_core_fast.c:259-269 (`shr` = shift of a `uint32_t`) and 411-421 (shift of an `int`). -/
def storeNodeL (p : Params) (shr : Nat → Nat → Option Nat) (m : Mem) (s : LState) (idx nodeh : Nat) (src : Ptr) : Option Mem := do
  let r ← shr idx nodeh
  if r = 1 then memcpy m (s.auth + w32 (nodeh * p.n)) src p.n
  else if nodeh < instsL p ∧ r = 3 then do
    let t ← s.treehash[nodeh]?
    memcpy m t.node src p.n
  else if instsL p ≤ nodeh then do
    let e := usub (usub p.tree_height 1) nodeh
    if 31 ≤ e then none
    else do
      let row ← shr (usub r 3) 1
      memcpy m (s.retain + w32 (w32 (usub (w32 ((1 <<< e) + nodeh)) p.tree_height + row) * p.n)) src p.n
  else some m

/-- The `while` loop xmss_core_fast.c:257-275 and its copy 409-428, on the stack `stack` with `levels` and `stackoffset = so`. -/
def mergeLoopL (P : Prims) (p : Params) (shr : Nat → Nat → Option Nat) (s : LState) (stack pubSeed : Ptr) (idx : Nat) :
    Nat → Levels → Nat → Mem → Addr → Option (Levels × Nat × Mem × Addr)
  | 0, _, _, _, _ => none
  | fuel + 1, lv, so, m, a => do
    let c ← (if 1 < so then do
        let l1 ← lv.get m (usub so 1)
        let l2 ← lv.get m (usub so 2)
        some (l1 = l2 : Bool)
      else some false : Option Bool)
    if c then do
      let nodeh ← lv.get m (usub so 1)
      let m ← storeNodeL p shr m s idx nodeh (stack + w32 (usub so 1 * p.n))
      let l ← lv.get m (usub so 1)
      let a := setTreeHeight a l
      let ti ← shr idx (w32 (l + 1))
      let a := setTreeIndex a ti
      let r ← thashH P p m (stack + w32 (usub so 2 * p.n)) (stack + w32 (usub so 2 * p.n)) pubSeed a
      let l2 ← lv.get r.1 (usub so 2)
      let v ← lv.set r.1 (usub so 2) (l2 + 1)
      mergeLoopL P p shr s stack pubSeed idx fuel v.1 (usub so 1) v.2 r.2
    else some (lv, so, m, a)

/-- `memcpy` that copies bytes as they are, initialised or not, xmss_core_fast.c:254, 406. -/
def memcpyRaw (m : Mem) (dst src : Ptr) (len : Nat) : Option Mem :=
  if dst.blk = src.blk ∧ dst.off ≠ src.off ∧ dst.off < src.off + len ∧ src.off < dst.off + len then none
  else do
    let b ← m[src.blk]?
    let c ← m[dst.blk]?
    if src.off + len ≤ b.length ∧ dst.off + len ≤ c.length then
      some (m.set dst.blk (c.take dst.off ++ (b.drop src.off).take len ++ c.drop (dst.off + len)))
    else none

/-- Adding one leaf, xmss_core_fast.c:248-276 and its copy 397-428; returns levels, stackoffset, memory and the addresses
(ltree, ots, node). -/
def addLeafL (P : Prims) (p : Params) (shr : Nat → Nat → Option Nat) (s : LState) (stack skSeed pubSeed : Ptr) (idx : Nat)
    (lv : Levels) (so : Nat) (m : Mem) (ltree ots node : Addr) : Option (Levels × Nat × Mem × Addr × Addr × Addr) := do
  let g ← genLeafWots P p m (stack + w32 (so * p.n)) skSeed pubSeed (setLtreeAddr ltree idx) (setOtsAddr ots idx)
  let v ← lv.set g.1 so 0
  let so := w32 (so + 1)
  let m ← (if 0 < instsL p ∧ idx = 3 then do
      let t ← s.treehash[0]?
      memcpyRaw v.2 t.node (stack + w32 (so * p.n)) p.n
    else some v.2 : Option Mem)
  let r ← mergeLoopL P p shr s stack pubSeed idx (so + 1) v.1 so m node
  some (r.1, r.2.1, r.2.2.1, g.2.1, g.2.2, r.2.2.2)

/-- `for (; idx < lastnode; idx++)` of `treehash_init`, xmss_core_fast.c:247-277: `k` leaves remain, the next is `idx` (= `i`). -/
def addLeavesL (P : Prims) (p : Params) (s : LState) (stack skSeed pubSeed : Ptr) :
    Nat → Nat → Levels → Nat → Mem → (ltree ots node : Addr) → Option Mem
  | 0, _, _, _, m, _, _, _ => some m
  | k + 1, idx, lv, so, m, ltree, ots, node => do
    let r ← addLeafL P p shr32 s stack skSeed pubSeed idx lv so m ltree ots node
    addLeavesL P p s stack skSeed pubSeed k (idx + 1) r.1 r.2.1 r.2.2.1 r.2.2.2.1 r.2.2.2.2.1 r.2.2.2.2.2

/-- The loop xmss_core_fast.c:241-245, from instance `i` on. -/
def resetInstsL : Nat → List LInst → List LInst
  | _, [] => []
  | i, t :: ts => { t with h := w8 i, completed := 1, stackusage := 0 } :: resetInstsL (i + 1) ts

/-- `treehash_init`, xmss_core_fast.c:214-282, for `height = tree_height` and `index = 0` (all its calls); returns the structure and
the memory. -/
def treehashInitL (P : Prims) (p : Params) (m0 : Mem) (node : Ptr) (s : LState) (skSeed pubSeed : Ptr) (addr : Addr) :
    Option (LState × Mem) := do
  let (stack, m) ← alloc m0 (w32 (w32 (p.tree_height + 1) * p.n))
  if w32 (p.tree_height + 1) = 0 then none
  else do
    let one ← oneShift p
    let s := { s with treehash := resetInstsL 0 s.treehash }
    let m ← addLeavesL P p s stack skSeed pubSeed one 0 (.loc (List.replicate (w32 (p.tree_height + 1)) none)) 0 m
      (ltreeOf addr) (otsOf addr) (nodeOf addr)
    let m ← memcpy m node stack p.n
    some (s, release m0 m)

/-- The `while` loop of `treehash_update`, xmss_core_fast.c:308-317; arguments `stackusage`, `stackoffset`, `nodeheight`, memory,
`node_addr`; `fuel` is at least the first stackusage. -/
def updateMergeL (P : Prims) (p : Params) (s : LState) (nodebuffer pubSeed : Ptr) (nextIdx : Nat) :
    Nat → Nat → Nat → Nat → Mem → Addr → Option (Nat × Nat × Nat × Mem)
  | 0, _, _, _, _, _ => none
  | fuel + 1, su, so, nh, m, a => do
    let c ← (if 0 < su then do
        let x ← load m (s.stacklevels + usub so 1) 1
        some ((x.headD 0).toNat = nh : Bool)
      else some false : Option Bool)
    if c then do
      let m ← memcpy m (nodebuffer + p.n) nodebuffer p.n
      let m ← memcpy m nodebuffer (s.stack + w32 (usub so 1 * p.n)) p.n
      let a := setTreeHeight a nh
      let ti ← shr64 nextIdx (w32 (nh + 1))
      let a := setTreeIndex a ti
      let r ← thashH P p m nodebuffer nodebuffer pubSeed a
      updateMergeL P p s nodebuffer pubSeed nextIdx fuel (su - 1) (usub so 1) (w32 (nh + 1)) r.1 r.2
    else some (su, so, nh, m)

/-- `treehash_update` on `treehash[lvl]`, xmss_core_fast.c:284-329. -/
def treehashUpdateL (P : Prims) (p : Params) (m0 : Mem) (s : LState) (lvl : Nat) (skSeed pubSeed : Ptr) (addr : Addr) :
    Option (LState × Mem) := do
  let t ← s.treehash[lvl]?
  let (nodebuffer, m) ← alloc m0 (w32 (2 * p.n))
  let g ← genLeafWots P p m nodebuffer skSeed pubSeed (setLtreeAddr (ltreeOf addr) t.nextIdx) (setOtsAddr (otsOf addr) t.nextIdx)
  let r ← updateMergeL P p s nodebuffer pubSeed t.nextIdx (t.stackusage + 1) t.stackusage s.stackoffset 0 g.1 (nodeOf addr)
  let su := r.1
  let so := r.2.1
  let nh := r.2.2.1
  let m := r.2.2.2
  if nh = t.h then do
    let m ← memcpy m t.node nodebuffer p.n
    some ({ s with stackoffset := so, treehash := s.treehash.set lvl { t with completed := 1, stackusage := su } }, release m0 m)
  else do
    let m ← memcpy m (s.stack + w32 (so * p.n)) nodebuffer p.n
    let m ← store m (s.stacklevels + so) [UInt8.ofNat (w8 nh)]
    some ({ s with
        stackoffset := w32 (so + 1)
        treehash := s.treehash.set lvl { t with stackusage := w8 (su + 1), nextIdx := w64 (t.nextIdx + 1) } }, release m0 m)

/-- `low` of instance `i`, xmss_core_fast.c:349-357. -/
def lowOfL (p : Params) (m : Mem) (s : LState) (i : Nat) : Option Nat := do
  let t ← s.treehash[i]?
  if t.completed ≠ 0 then some p.tree_height
  else if t.stackusage = 0 then some i
  else minHeightL p m s t

/-- The selection loop, xmss_core_fast.c:348-362: `k` instances remain, the next is `i`; locals `level`, `l_min`. -/
def pickLoopL (p : Params) (m : Mem) (s : LState) : Nat → Nat → Nat → Nat → Option Nat
  | 0, _, level, _ => some level
  | k + 1, i, level, lmin => do
    let low ← lowOfL p m s i
    if low < lmin then pickLoopL p m s k (i + 1) i low else pickLoopL p m s k (i + 1) level lmin

/-- `for (j = 0; j < updates; j++)` of `bds_treehash_update`, xmss_core_fast.c:345-368; also returns `used`. -/
def bdsUpdateLoopL (P : Prims) (p : Params) (skSeed pubSeed : Ptr) (addr : Addr) :
    Nat → LState → Nat → Mem → Option (LState × Nat × Mem)
  | 0, s, used, m => some (s, used, m)
  | j + 1, s, used, m => do
    let level ← pickLoopL p m s (instsL p) 0 (instsL p) p.tree_height
    if level = instsL p then some (s, used, m)
    else do
      let r ← treehashUpdateL P p m s level skSeed pubSeed addr
      bdsUpdateLoopL P p skSeed pubSeed addr j r.1 (used + 1) r.2

/-- `bds_treehash_update`, xmss_core_fast.c:335-370; returns the structure, the `char` result converted to `unsigned int` (xmss_core_fast.c:952)
and the memory. -/
def bdsTreehashUpdateL (P : Prims) (p : Params) (m : Mem) (s : LState) (updates : Nat) (skSeed pubSeed : Ptr) (addr : Addr) :
    Option (LState × Nat × Mem) := do
  let r ← bdsUpdateLoopL P p skSeed pubSeed addr updates s 0 m
  some (r.1, charToUnsigned (usub updates r.2.1), r.2.2)

/-- `bds_state_update`, xmss_core_fast.c:376-432. -/
def bdsStateUpdateL (P : Prims) (p : Params) (m : Mem) (s : LState) (skSeed pubSeed : Ptr) (addr : Addr) : Option (LState × Mem) := do
  let one ← oneShift p
  if s.nextLeaf = one then some (s, m)
  else do
    let r ← addLeafL P p sar32 s s.stack skSeed pubSeed s.nextLeaf (.mem s.stacklevels) s.stackoffset m
      (ltreeOf addr) (otsOf addr) (nodeOf addr)
    some ({ s with stackoffset := r.2.1, nextLeaf := w32 (s.nextLeaf + 1) }, r.2.2.1)

/-- The loop computing `tau`, xmss_core_fast.c:463-468: `k` iterations remain, the next is `i`. -/
def tauLoopL (p : Params) (leafIdx : Nat) : Nat → Nat → Option Nat
  | 0, _ => some p.tree_height
  | k + 1, i => do
    let x ← shr64 leafIdx i
    if x &&& 1 = 0 then some i else tauLoopL p leafIdx k (i + 1)

/-- The loop xmss_core_fast.c:487-496: `k` iterations remain, the next is `i`. -/
def authLoopL (p : Params) (s : LState) (leafIdx : Nat) : Nat → Nat → Mem → Option Mem
  | 0, _, m => some m
  | k + 1, i, m => do
    let m ← (if i < instsL p then do
        let t ← s.treehash[i]?
        memcpy m (s.auth + w32 (i * p.n)) t.node p.n
      else do
        let e := usub (usub p.tree_height 1) i
        if 31 ≤ e then none
        else do
          let offset := usub (w32 ((1 <<< e) + i)) p.tree_height
          let x ← shr64 leafIdx i
          let rowidx := w32 (w64 (x + (2 ^ 64 - 1)) >>> 1)
          memcpy m (s.auth + w32 (i * p.n)) (s.retain + w32 (w32 (offset + rowidx) * p.n)) p.n : Option Mem)
    authLoopL p s leafIdx k (i + 1) m

/-- The loop xmss_core_fast.c:498-506: `k` iterations remain, the next is `i`. -/
def restartLoopL (p : Params) (leafIdx : Nat) : Nat → Nat → LState → Option LState
  | 0, _, s => some s
  | k + 1, i, s =>
    if 30 ≤ i ∨ 32 ≤ p.tree_height then none
    else do
      let startidx := w32 (leafIdx + 1 + 3 * (1 <<< i))
      let s ← (if startidx < 1 <<< p.tree_height then do
          let t ← s.treehash[i]?
          some { s with treehash := s.treehash.set i { t with h := w8 i, nextIdx := startidx, completed := 0, stackusage := 0 } }
        else some s : Option LState)
      restartLoopL p leafIdx k (i + 1) s

/-- `bds_round`, xmss_core_fast.c:439-508. -/
def bdsRoundL (P : Prims) (p : Params) (m0 : Mem) (s : LState) (leafIdx : Nat) (skSeed pubSeed : Ptr) (addr : Addr) :
    Option (LState × Mem) := do
  let (buf, m) ← alloc m0 (w32 (2 * p.n))
  let tau ← tauLoopL p leafIdx p.tree_height 0
  let m ← (if 0 < tau then do
      let m ← memcpy m buf (s.auth + w32 (usub tau 1 * p.n)) p.n
      memcpy m (buf + p.n) (s.keep + w32 ((usub tau 1 >>> 1) * p.n)) p.n
    else some m : Option Mem)
  let x ← shr64 leafIdx (w32 (tau + 1))
  let m ← (if x &&& 1 = 0 ∧ tau < usub p.tree_height 1 then
      memcpy m (s.keep + w32 ((tau >>> 1) * p.n)) (s.auth + w32 (tau * p.n)) p.n
    else some m : Option Mem)
  if tau = 0 then do
    let g ← genLeafWots P p m s.auth skSeed pubSeed (setLtreeAddr (ltreeOf addr) leafIdx) (setOtsAddr (otsOf addr) leafIdx)
    some (s, release m0 g.1)
  else do
    let y ← shr64 leafIdx tau
    let r ← thashH P p m (s.auth + w32 (tau * p.n)) buf pubSeed
      (setTreeIndex (setTreeHeight (nodeOf addr) (usub tau 1)) y)
    let m ← authLoopL p s leafIdx tau 0 r.1
    let s ← restartLoopL p leafIdx (if tau < instsL p then tau else instsL p) 0 s
    some (s, release m0 m)

/-! ### Key generation and signing -/

/-- `treehash_inst treehash[...]` and `bds_state states[...]` of the entry functions, e.g. xmss_core_fast.c:544, 735-736: a size of 0 is
undefined. -/
def arraysOk (p : Params) : Bool := instsL p ≠ 0 ∧ usub (w32 (2 * p.d)) 1 ≠ 0

/-- `xmss_core_keypair`, xmss_core_fast.c:538-575; `rnd` are the bytes that the two calls of `randombytes` deliver.
(`states[0]` is `state`.) -/
def fastXmssKeypairL (P : Prims) (p : Params) (m : Mem) (pk sk : Ptr) (rnd : Bytes) : Option Mem := do
  if ¬ arraysOk p then none
  else do
  let ds ← deserializeL p m sk
  let s ← ds.1[0]?
  let s := { s with stackoffset := 0, nextLeaf := 0 }
  let m ← store m sk [0, 0, 0, 0]
  let m ← store m (sk + p.index_bytes) (rnd.take (2 * p.n))
  let m ← store m (sk + p.index_bytes + w32 (3 * p.n)) (rnd.drop (2 * p.n))
  let m ← memcpy m (pk + p.n) (sk + p.index_bytes + w32 (3 * p.n)) p.n
  let r ← treehashInitL P p m pk s (sk + p.index_bytes) (sk + p.index_bytes + w32 (3 * p.n)) Addr.zero
  let m ← memcpy r.2 (sk + p.index_bytes + w32 (2 * p.n)) pk p.n
  serializeL p m sk [r.1]

/-- The loops that store an index, `sk[i] = (x >> 8*(len - 1 - i)) & 255`, xmss_core_fast.c:637-640, 665-668 (written out), 852-854,
877-879: `k` bytes remain, the next is `i`. -/
def idxStoreLoop (out : Ptr) (len x : Nat) : Nat → Nat → Mem → Option Mem
  | 0, _, m => some m
  | k + 1, i, m => do
    let s := w32 (8 * usub (usub len 1) i)
    if 64 ≤ s then none
    else do
      let m ← store m (out + i) [UInt8.ofNat ((x >>> s) &&& 255)]
      idxStoreLoop out len x k (i + 1) m

/-- `xmss_core_sign` from the call of `prf` on, xmss_core_fast.c:657-720: the six local byte arrays are `skSeed` .. `msgH`, `m0` is the
memory of the caller. -/
def fastXmssSignRestL (P : Prims) (p : Params) (m0 : Mem) (sk sm msg : Ptr) (mlen : Nat) (s : LState) (idx : Nat)
    (skSeed skPrf pubSeed idx32 R msgH : Ptr) (m : Mem) : Option (Nat × Mem) := do
  let pubRoot : Ptr := sk + p.index_bytes + w32 (2 * p.n)
  let m ← prf P p m R idx32 skPrf
  let m ← memcpy m (sm + p.sig_bytes) msg mlen
  let mp ← (sm + p.sig_bytes).sub p.padding_len
  let mp ← mp.sub (w32 (3 * p.n))
  let m ← hashMessage P p m msgH R pubRoot idx mp mlen
  let m ← idxStoreLoop sm 4 idx 4 0 m
  let sm : Ptr := sm + 4
  let smlen := 4
  let m ← memcpy m sm R p.n
  let sm : Ptr := sm + p.n
  let smlen := smlen + p.n
  let otsAddr := setOtsAddr (setType Addr.zero typeOts) idx
  let w ← wotsSign P p m sm msgH skSeed pubSeed otsAddr
  let sm : Ptr := sm + p.wots_sig_bytes
  let smlen := smlen + p.wots_sig_bytes
  let m ← memcpy w.1 sm s.auth (w32 (p.tree_height * p.n))
  if 32 ≤ p.tree_height then none
  else do
  let r ← (if idx < (1 <<< p.tree_height) - 1 then do
      let r ← bdsRoundL P p m s idx skSeed pubSeed w.2
      let r ← bdsTreehashUpdateL P p r.2 r.1 (instsL p >>> 1) skSeed pubSeed w.2
      some (r.1, r.2.2)
    else some (s, m) : Option (LState × Mem))
  let sm : Ptr := sm + w32 (p.tree_height * p.n)
  let smlen := smlen + w32 (p.tree_height * p.n)
  let m ← memcpy r.2 sm msg mlen
  let smlen := w64 (smlen + mlen)
  let m ← serializeL p m sk [r.1]
  some (smlen, release m0 m)

/-- `xmss_core_sign` after the exhaustion check, xmss_core_fast.c:624-720; `sm` and `*smlen` are returned. -/
def fastXmssSignBodyL (P : Prims) (p : Params) (m0 : Mem) (sk sm msg : Ptr) (mlen : Nat) (s : LState) (idx : Nat) :
    Option (Nat × Mem) := do
  let (skSeed, m) ← alloc m0 p.n
  let m ← memcpy m skSeed (sk + p.index_bytes) p.n
  let (skPrf, m) ← alloc m p.n
  let m ← memcpy m skPrf (sk + p.index_bytes + p.n) p.n
  let (pubSeed, m) ← alloc m p.n
  let m ← memcpy m pubSeed (sk + p.index_bytes + w32 (3 * p.n)) p.n
  let (idx32, m) ← alloc m 32
  let m ← ullToBytes m idx32 32 idx
  let m ← idxStoreLoop sk 4 (w64 (idx + 1)) 4 0 m
  let (R, m) ← alloc m p.n
  let (msgH, m) ← alloc m p.n
  fastXmssSignRestL P p m0 sk sm msg mlen s idx skSeed skPrf pubSeed idx32 R msgH m

/-- `xmss_core_sign` of the fast implementation, xmss_core_fast.c:584-720; returns the return value, `*smlen` and the memory. -/
def fastXmssSignL (P : Prims) (p : Params) (m : Mem) (sk sm : Ptr) (smlen0 : Nat) (msg : Ptr) (mlen : Nat) :
    Option (Int × Nat × Mem) := do
  if ¬ arraysOk p then none
  else do
  let ds ← deserializeL p m sk
  let s ← ds.1[0]?
  let idx ← bytesToUll m sk 4
  let one ← one64 p.full_height
  if one - 1 ≤ idx then do
    let m ← store m sk (List.replicate p.index_bytes 0xFF)
    let m ← store m (sk + p.index_bytes) (List.replicate (w64 (p.sk_bytes + (2 ^ 64 - p.index_bytes))) 0)
    if one - 1 < idx ∨ (p.full_height = 64 ∧ idx = one - 1) then some (-2, smlen0, m)
    else do
      let r ← fastXmssSignBodyL P p m sk sm msg mlen s idx
      some (0, r.1, r.2)
  else do
    let r ← fastXmssSignBodyL P p m sk sm msg mlen s idx
    some (0, r.1, r.2)

/-- Loop of `xmssmt_core_keypair`, xmss_core_fast.c:763-768: `k` layers remain, the next is `i`. -/
def fastKeypairLoopL (P : Prims) (p : Params) (pk wotsSigs skSeed pubSeed : Ptr) :
    Nat → Nat → List LState → Mem → Addr → Option (List LState × Mem × Addr)
  | 0, _, states, m, a => some (states, m, a)
  | k + 1, i, states, m, a => do
    let s ← states[i]?
    let r ← treehashInitL P p m pk s skSeed pubSeed a
    let states := states.set i r.1
    let a := setLayerAddr a (i + 1)
    let w ← wotsSign P p r.2 (wotsSigs + w32 (i * p.wots_sig_bytes)) pk skSeed pubSeed a
    fastKeypairLoopL P p pk wotsSigs skSeed pubSeed k (i + 1) states w.1 w.2

/-- `xmssmt_core_keypair`, xmss_core_fast.c:727-776.  `d` = 1 leaves `wots_sigs` unset, which is then not used. -/
def fastXmssmtKeypairL (P : Prims) (p : Params) (m : Mem) (pk sk : Ptr) (rnd : Bytes) : Option Mem := do
  if ¬ arraysOk p then none
  else do
  let ds ← deserializeL p m sk
  let states := ds.1.map fun s => { s with stackoffset := 0, nextLeaf := 0 }
  let m ← store m sk (List.replicate p.index_bytes 0)
  let m ← store m (sk + p.index_bytes) (rnd.take (2 * p.n))
  let m ← store m (sk + p.index_bytes + w32 (3 * p.n)) (rnd.drop (2 * p.n))
  let m ← memcpy m (pk + p.n) (sk + p.index_bytes + w32 (3 * p.n)) p.n
  let r ← fastKeypairLoopL P p pk ds.2 (sk + p.index_bytes) (pk + p.n) (usub p.d 1) 0 states m (setLayerAddr Addr.zero 0)
  let s ← r.1[usub p.d 1]?
  let t ← treehashInitL P p r.2.1 pk s (sk + p.index_bytes) (pk + p.n) r.2.2
  let m ← memcpy t.2 (sk + p.index_bytes + w32 (2 * p.n)) pk p.n
  serializeL p m sk (r.1.set (usub p.d 1) t.1)

/-- Locals of `xmssmt_core_sign` in the loop of xmss_core_fast.c:942-980; `swap` is `(unsigned int) (needswap_upto + 1)`. -/
structure MtLocalsL where
  states : List LState
  updates : Nat
  swap : Nat
  addr : Addr
  otsAddr : Addr
  mem : Mem

/-- Branch of xmss_core_fast.c:944-961. -/
def mtStepInnerL (P : Prims) (p : Params) (skSeed pubSeed : Ptr) (idx i : Nat) (v : MtLocalsL) : Option MtLocalsL := do
  let one ← oneShift p
  let x ← shr64 idx (w64 (p.tree_height * i))
  let idxLeaf := w32 (x &&& (one - 1))
  let idxTree ← shr64 idx (w64 (p.tree_height * (i + 1)))
  let addr := setTreeAddr (setLayerAddr v.addr i) idxTree
  let s ← v.states[i]?
  let q ← (if i = v.swap then bdsRoundL P p v.mem s idxLeaf skSeed pubSeed addr else some (s, v.mem) : Option (LState × Mem))
  let r ← bdsTreehashUpdateL P p q.2 q.1 v.updates skSeed pubSeed addr
  let states := v.states.set i r.1
  let addr := setTreeAddr addr (idxTree + 1)
  let bound ← one64 (w64 (p.full_height + (2 ^ 64 - p.tree_height * i)))
  if w64 (w64 (1 + idxTree) * one + idxLeaf) < bound then
    if 0 < i ∧ 0 < r.2.1 then do
      let next ← states[p.d + i]?
      let full ← one64 p.full_height
      if next.nextLeaf < full then do
        let u ← bdsStateUpdateL P p r.2.2 next skSeed pubSeed addr
        some { v with states := states.set (p.d + i) u.1, updates := r.2.1 - 1, addr := addr, mem := u.2 }
      else some { v with states := states, updates := r.2.1, addr := addr, mem := r.2.2 }
    else some { v with states := states, updates := r.2.1, addr := addr, mem := r.2.2 }
  else some { v with states := states, updates := r.2.1, addr := addr, mem := r.2.2 }

/-- Branch of xmss_core_fast.c:962-979. -/
def mtStepSwapL (P : Prims) (p : Params) (wotsSigs skSeed pubSeed : Ptr) (idx i : Nat) (v : MtLocalsL) : Option MtLocalsL := do
  let one ← oneShift p
  let a ← v.states[p.d + i]?
  let b ← v.states[i]?
  let r ← deepStateSwap p v.mem a b
  let otsAddr := setLayerAddr v.otsAddr (i + 1)
  let x ← shr64 (w64 (idx + 1)) (w64 ((i + 2) * p.tree_height))
  let otsAddr := setTreeAddr otsAddr x
  let y ← shr64 idx (w64 ((i + 1) * p.tree_height))
  let otsAddr := setOtsAddr otsAddr (w64 (y + 1) &&& (one - 1))
  let w ← wotsSign P p r.2.2 (wotsSigs + w64 (i * p.wots_sig_bytes)) r.2.1.stack skSeed pubSeed otsAddr
  let states := v.states.set (p.d + i) { r.1 with stackoffset := 0, nextLeaf := 0 }
  let states := states.set i { r.2.1 with treehash := r.2.1.treehash.map fun t => { t with completed := 1 } }
  some { states := states, updates := usub v.updates 1, swap := w32 (i + 1), addr := v.addr, otsAddr := w.2, mem := w.1 }

/-- Body of the loop, xmss_core_fast.c:943-979. -/
def mtStepL (P : Prims) (p : Params) (wotsSigs skSeed pubSeed : Ptr) (idx i : Nat) (v : MtLocalsL) : Option MtLocalsL := do
  let b ← one64 (w64 ((i + 1) * p.tree_height))
  let full ← one64 p.full_height
  if ¬ (w64 (idx + 1) &&& (b - 1) = 0) then mtStepInnerL P p skSeed pubSeed idx i v
  else if idx < full - 1 then mtStepSwapL P p wotsSigs skSeed pubSeed idx i v
  else some v

/-- The loop, xmss_core_fast.c:942-980: `k` layers remain, the next is `i`. -/
def mtLoopL (P : Prims) (p : Params) (wotsSigs skSeed pubSeed : Ptr) (idx : Nat) : Nat → Nat → MtLocalsL → Option MtLocalsL
  | 0, _, v => some v
  | k + 1, i, v => do
    let v ← mtStepL P p wotsSigs skSeed pubSeed idx i v
    mtLoopL P p wotsSigs skSeed pubSeed idx k (i + 1) v

/-- The loop of xmss_core_fast.c:921-932: `k` layers remain, the next is `i`; returns memory, `sm` and `*smlen`. -/
def mtCopyLoopL (p : Params) (states : List LState) (wotsSigs : Ptr) : Nat → Nat → Mem → Ptr → Nat → Option (Mem × Ptr × Nat)
  | 0, _, m, sm, smlen => some (m, sm, smlen)
  | k + 1, i, m, sm, smlen => do
    let m ← memcpy m sm (wotsSigs + w64 ((i - 1) * p.wots_sig_bytes)) p.wots_sig_bytes
    let sm : Ptr := sm + p.wots_sig_bytes
    let s ← states[i]?
    let m ← memcpy m sm s.auth (w32 (p.tree_height * p.n))
    mtCopyLoopL p states wotsSigs k (i + 1) m (sm + w32 (p.tree_height * p.n)) (smlen + p.wots_sig_bytes + w32 (p.tree_height * p.n))

/-- `xmssmt_core_sign` after the exhaustion check, xmss_core_fast.c:847-988; the seven local byte arrays are created by the caller. -/
def fastXmssmtSignBodyL (P : Prims) (p : Params) (m : Mem) (skSeed skPrf pubSeed R msgH idx32 sk sm msg : Ptr) (mlen : Nat)
    (states : List LState) (wotsSigs : Ptr) (idx : Nat) : Option (Nat × Mem) := do
  let pubRoot : Ptr := sk + p.index_bytes + w32 (2 * p.n)
  let m ← memcpy m skSeed (sk + p.index_bytes) p.n
  let m ← memcpy m skPrf (sk + p.index_bytes + p.n) p.n
  let m ← memcpy m pubSeed (sk + p.index_bytes + w32 (3 * p.n)) p.n
  let m ← idxStoreLoop sk p.index_bytes (w64 (idx + 1)) p.index_bytes 0 m
  let m ← ullToBytes m idx32 32 idx
  let m ← prf P p m R idx32 skPrf
  let m ← memcpy m (sm + p.sig_bytes) msg mlen
  let mp ← (sm + p.sig_bytes).sub p.padding_len
  let mp ← mp.sub (w32 (3 * p.n))
  let m ← hashMessage P p m msgH R pubRoot idx mp mlen
  let m ← idxStoreLoop sm p.index_bytes idx p.index_bytes 0 m
  let sm : Ptr := sm + p.index_bytes
  let smlen := p.index_bytes
  let m ← memcpy m sm R p.n
  let sm : Ptr := sm + p.n
  let smlen := smlen + p.n
  let one ← oneShift p
  let idxTree ← shr64 idx p.tree_height
  let idxLeaf := w32 (idx &&& (one - 1))
  let otsAddr := setOtsAddr (setTreeAddr (setLayerAddr (setType Addr.zero typeOts) 0) idxTree) idxLeaf
  let w ← wotsSign P p m sm msgH skSeed pubSeed otsAddr
  let sm : Ptr := sm + p.wots_sig_bytes
  let smlen := smlen + p.wots_sig_bytes
  let s0 ← states[0]?
  let m ← memcpy w.1 sm s0.auth (w32 (p.tree_height * p.n))
  let sm : Ptr := sm + w32 (p.tree_height * p.n)
  let smlen := smlen + w32 (p.tree_height * p.n)
  let c ← mtCopyLoopL p states wotsSigs (p.d - 1) 1 m sm smlen
  let addr := setTreeAddr Addr.zero (idxTree + 1)
  let full ← one64 p.full_height
  let q ← (if w64 (w64 (1 + idxTree) * one + idxLeaf) < full then do
      let next ← states[p.d]?
      let u ← bdsStateUpdateL P p c.1 next skSeed pubSeed addr
      some (states.set p.d u.1, u.2)
    else some (states, c.1) : Option (List LState × Mem))
  let v ← mtLoopL P p wotsSigs skSeed pubSeed idx p.d 0
    { states := q.1, updates := instsL p >>> 1, swap := 0, addr := addr, otsAddr := w.2, mem := q.2 }
  let m ← memcpy v.mem c.2.1 msg mlen
  let smlen := w64 (c.2.2 + mlen)
  let m ← serializeL p m sk v.states
  some (smlen, m)

/-- `xmssmt_core_sign` of the fast implementation, xmss_core_fast.c:785-988. -/
def fastXmssmtSignL (P : Prims) (p : Params) (m0 : Mem) (sk sm : Ptr) (smlen0 : Nat) (msg : Ptr) (mlen : Nat) :
    Option (Int × Nat × Mem) := do
  let (skSeed, m) ← alloc m0 p.n
  let (skPrf, m) ← alloc m p.n
  let (pubSeed, m) ← alloc m p.n
  let (R, m) ← alloc m p.n
  let (msgH, m) ← alloc m p.n
  let (idx32, m) ← alloc m 32
  if ¬ arraysOk p then none
  else do
  let ds ← deserializeL p m sk
  let idx ← bytesToUll m sk p.index_bytes
  let one ← one64 p.full_height
  if one - 1 ≤ idx then do
    let m ← store m sk (List.replicate p.index_bytes 0xFF)
    let m ← store m (sk + p.index_bytes) (List.replicate (w64 (p.sk_bytes + (2 ^ 64 - p.index_bytes))) 0)
    if one - 1 < idx ∨ (p.full_height = 64 ∧ idx = one - 1) then some (-2, smlen0, release m0 m)
    else do
      let r ← fastXmssmtSignBodyL P p m skSeed skPrf pubSeed R msgH idx32 sk sm msg mlen ds.1 ds.2 idx
      some (0, r.1, release m0 r.2)
  else do
    let r ← fastXmssmtSignBodyL P p m skSeed skPrf pubSeed R msgH idx32 sk sm msg mlen ds.1 ds.2 idx
    some (0, r.1, release m0 r.2)

/-! ### xmss.c linked with xmss_core_fast.c -/

/-- The core functions of a family: `xmss_core_keypair` (xmss_core_fast.c:538) or `xmssmt_core_keypair` (727). -/
def fastKeypairL (P : Prims) : Family → Params → Mem → Ptr → Ptr → Bytes → Option Mem
  | .xmss => fastXmssKeypairL P
  | .xmssmt => fastXmssmtKeypairL P

/-- `xmss_core_sign` (xmss_core_fast.c:584) or `xmssmt_core_sign` (785). -/
def fastSignL (P : Prims) : Family → Params → Mem → Ptr → Ptr → Nat → Ptr → Nat → Option (Int × Nat × Mem)
  | .xmss => fastXmssSignL P
  | .xmssmt => fastXmssmtSignL P

/-- `xmss_keypair` / `xmssmt_keypair`, xmss.c:10-26, 62-75; `rnd p` are the bytes `randombytes` delivers. -/
def apiKeypairFastL (P : Prims) (f : Family) (m : Mem) (pk sk : Ptr) (oid : Nat) (rnd : Params → Bytes) : Option (Int × Mem) :=
  match f.parseFast oid with
  | none => some (-1, m)
  | some p => do
    let m ← oidWriteLoop pk sk oid oidLen 0 m
    let m ← fastKeypairL P f p m (pk + oidLen) (sk + oidLen) (rnd p)
    some (0, m)

/-- `xmss_sign` / `xmssmt_sign`, xmss.c:28-43, 77-92; `smlen0` is the previous value of `*smlen`. -/
def apiSignFastL (P : Prims) (f : Family) (m : Mem) (sk sm : Ptr) (smlen0 : Nat) (msg : Ptr) (mlen : Nat) :
    Option (Int × Nat × Mem) := do
  let oid ← oidReadLoop m sk oidLen 0 0
  match f.parseFast oid with
  | none => some (-1, smlen0, m)
  | some p => fastSignL P f p m (sk + oidLen) sm smlen0 msg mlen

end Xmss.Low
