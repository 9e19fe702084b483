import Verif.Model.Core
/-
Model of the tree traversal (BDS) functions of xmss_core_fast.c, lines 14-508.

Arrays of nodes inside a `bds_state` are lists of nodes; every access is checked, an index outside its array is
undefined behaviour (`none`).  Array fields are pointers into the secret key in C; here they are values that are read
from and written back to the secret key by `readState` / `stateBytes` (file FastCore).
`unsigned char` / `unsigned int` counters are `Nat`; truncation to the stored width is modelled where they are stored.
-/
namespace Xmss

/-- Store into an array of nodes, e.g. `memcpy(state->auth + nodeh*n, ...)`, xmss_core_fast.c:260; out of bounds is
undefined behaviour. -/
def setA {α : Type} (l : List α) (i : Nat) (x : α) : Option (List α) :=
  if i < l.length then some (l.set i x) else none

/-- `treehash_inst`, xmss_core_fast.c:14-20. -/
@[ext] structure TreehashInst where
  h : Nat
  nextIdx : Nat
  stackusage : Nat
  completed : Nat
  node : Bytes
deriving DecidableEq, Repr, Inhabited

/-- `bds_state`, xmss_core_fast.c:22-31.  `leaves` is a ghost field: it counts the calls of `gen_leaf_wots` and is not
in the C code. -/
@[ext] structure BdsState where
  stack : List Bytes
  stackoffset : Nat
  stacklevels : List Nat
  auth : List Bytes
  keep : List Bytes
  treehash : List TreehashInst
  retain : List Bytes
  nextLeaf : Nat
  leaves : Nat
deriving DecidableEq, Repr, Inhabited

/-- `params->tree_height - params->bds_k`, the number of treehash instances, e.g. xmss_core_fast.c:241. -/
def Params.insts (p : Params) : Nat := p.tree_height - p.bds_k

/-- The three working addresses that every function sets up from `addr`, e.g. xmss_core_fast.c:220-230. -/
def otsOf (addr : Addr) : Addr := setType (copySubtreeAddr Addr.zero addr) typeOts
/-- xmss_core_fast.c:227-228 -/
def ltreeOf (addr : Addr) : Addr := setType (copySubtreeAddr Addr.zero addr) typeLtree
/-- xmss_core_fast.c:229-230 -/
def nodeOf (addr : Addr) : Addr := setType (copySubtreeAddr Addr.zero addr) typeHashtree

/-- Loop of `treehash_minheight_on_stack`, xmss_core_fast.c:201-205: `k` iterations remain, the next is `i`. -/
def minHeightLoop (s : BdsState) : Nat → Nat → Nat → Option Nat
  | 0, _, r => some r
  | k + 1, i, r =>
    if s.stackoffset < i + 1 then none
    else do
      let l ← s.stacklevels[s.stackoffset - i - 1]?
      minHeightLoop s k (i + 1) (if l < r then l else r)

/-- `treehash_minheight_on_stack`, xmss_core_fast.c:195-207. -/
def minHeightOnStack (p : Params) (s : BdsState) (t : TreehashInst) : Option Nat :=
  minHeightLoop s t.stackusage 0 p.tree_height

/-- The assignments of a right node to `auth`, `treehash[].node` or `retain`, xmss_core_fast.c:259-269 and 411-421. -/
def storeNode (p : Params) (s : BdsState) (idx nodeh : Nat) (node : Bytes) : Option BdsState :=
  if idx >>> nodeh = 1 then do
    let auth ← setA s.auth nodeh node
    some { s with auth := auth }
  else if nodeh < p.insts ∧ idx >>> nodeh = 3 then do
    let t ← s.treehash[nodeh]?
    some { s with treehash := s.treehash.set nodeh { t with node := node } }
  else if p.insts ≤ nodeh then do
    let retain ← setA s.retain
      ((1 <<< (p.tree_height - 1 - nodeh)) + nodeh - p.tree_height + (((idx >>> nodeh) - 3) >>> 1)) node
    some { s with retain := retain }
  else some s

/-- The `while` loop xmss_core_fast.c:257-275 (on the local stack of `treehash_init`) and its copy 409-428 (on the stack
of the state).  `fuel` bounds the iterations; `stackoffset` decreases in each, so `fuel = stackoffset` is enough. -/
def mergeLoop (H : Bytes → Bytes) (p : Params) (pubSeed : Bytes) (idx : Nat) :
    Nat → BdsState → Addr → Option (BdsState × Addr)
  | 0, s, addr => some (s, addr)
  | fuel + 1, s, addr =>
    if s.stackoffset ≤ 1 then some (s, addr)
    else do
      let l1 ← s.stacklevels[s.stackoffset - 1]?
      let l2 ← s.stacklevels[s.stackoffset - 2]?
      if l1 ≠ l2 then some (s, addr)
      else do
        let top ← s.stack[s.stackoffset - 1]?
        let s ← storeNode p s idx l1 top
        let left ← s.stack[s.stackoffset - 2]?
        let r := thashH H p (left ++ top) pubSeed (setTreeIndex (setTreeHeight addr l1) (idx >>> (l1 + 1)))
        let stack ← setA s.stack (s.stackoffset - 2) r.1
        let levels ← setA s.stacklevels (s.stackoffset - 2) (l2 + 1)
        mergeLoop H p pubSeed idx fuel
          { s with stack := stack, stacklevels := levels, stackoffset := s.stackoffset - 1 } r.2

/-- Adding one leaf: the body of the `for` loop of `treehash_init` (xmss_core_fast.c:247-276) and of `bds_state_update`
(400-428), which are textual copies.  Line 254/406 copies the (stale) slot above the new leaf.
Returns the state and the three addresses (ltree, ots, node), which `treehash_init` reuses. -/
def addLeaf (H : Bytes → Bytes) (p : Params) (skSeed pubSeed : Bytes) (idx : Nat) (s : BdsState)
    (ltree ots node : Addr) : Option (BdsState × Addr × Addr × Addr) := do
  let g := genLeafWots H p skSeed pubSeed (setLtreeAddr ltree idx) (setOtsAddr ots idx)
  let stack ← setA s.stack s.stackoffset g.1
  let levels ← setA s.stacklevels s.stackoffset 0
  let s := { s with stack := stack, stacklevels := levels, stackoffset := s.stackoffset + 1, leaves := s.leaves + 1 }
  let s ← (if 0 < p.insts ∧ idx = 3 then do
      let stale ← s.stack[s.stackoffset]?
      let t ← s.treehash[0]?
      some { s with treehash := s.treehash.set 0 { t with node := stale } }
    else some s : Option BdsState)
  let r ← mergeLoop H p pubSeed idx s.stackoffset s node
  some (r.1, g.2.1, g.2.2, r.2)

/-- `for (; idx < lastnode; idx++)` of `treehash_init`, xmss_core_fast.c:247-277: `k` leaves remain, the next is `idx`. -/
def addLeaves (H : Bytes → Bytes) (p : Params) (skSeed pubSeed : Bytes) :
    Nat → Nat → BdsState → (ltree ots node : Addr) → Option BdsState
  | 0, _, s, _, _, _ => some s
  | k + 1, idx, s, ltree, ots, node => do
    let r ← addLeaf H p skSeed pubSeed idx s ltree ots node
    addLeaves H p skSeed pubSeed k (idx + 1) r.1 r.2.1 r.2.2.1 r.2.2.2

/-- `treehash[i].h = i; completed = 1; stackusage = 0` for all instances, xmss_core_fast.c:241-245. -/
def resetInsts : Nat → List TreehashInst → List TreehashInst
  | _, [] => []
  | i, t :: ts => { t with h := i, completed := 1, stackusage := 0 } :: resetInsts (i + 1) ts

/-- `treehash_init`, xmss_core_fast.c:214-282, for `height = tree_height` and `index = 0` (all its calls).
It uses a local stack of `height + 1` slots (the indeterminate content is taken to be zero) and leaves the stack fields of
the state alone.  Returns the root and the state. -/
def treehashInit (H : Bytes → Bytes) (p : Params) (s : BdsState) (skSeed pubSeed : Bytes) (addr : Addr) :
    Option (Bytes × BdsState) := do
  let w := { s with
    treehash := resetInsts 0 s.treehash
    stack := List.replicate (p.tree_height + 1) (List.replicate p.n 0)
    stacklevels := List.replicate (p.tree_height + 1) 0
    stackoffset := 0 }
  let w ← addLeaves H p skSeed pubSeed (1 <<< p.tree_height) 0 w (ltreeOf addr) (otsOf addr) (nodeOf addr)
  let root ← w.stack[0]?
  some (root, { w with stack := s.stack, stacklevels := s.stacklevels, stackoffset := s.stackoffset })

/-- The `while` loop of `treehash_update`, xmss_core_fast.c:308-317.  Arguments: `stackusage`, `stackoffset`, `nodeheight`,
the node in `nodebuffer`, `node_addr`; returns the first four. -/
def updateMerge (H : Bytes → Bytes) (p : Params) (pubSeed : Bytes) (s : BdsState) (nextIdx : Nat) :
    Nat → Nat → Nat → Bytes → Addr → Option (Nat × Nat × Nat × Bytes)
  | 0, so, nh, node, _ => some (0, so, nh, node)
  | su + 1, so, nh, node, addr =>
    if so = 0 then none
    else do
      let l ← s.stacklevels[so - 1]?
      if l = nh then do
        let left ← s.stack[so - 1]?
        let r := thashH H p (left ++ node) pubSeed (setTreeIndex (setTreeHeight addr nh) (nextIdx >>> (nh + 1)))
        updateMerge H p pubSeed s nextIdx su (so - 1) (nh + 1) r.1 r.2
      else some (su + 1, so, nh, node)

/-- `treehash_update` on `treehash[lvl]`, xmss_core_fast.c:284-329. -/
def treehashUpdate (H : Bytes → Bytes) (p : Params) (s : BdsState) (lvl : Nat) (skSeed pubSeed : Bytes) (addr : Addr) :
    Option BdsState := do
  let t ← s.treehash[lvl]?
  let g := genLeafWots H p skSeed pubSeed (setLtreeAddr (ltreeOf addr) t.nextIdx) (setOtsAddr (otsOf addr) t.nextIdx)
  let r ← updateMerge H p pubSeed s t.nextIdx t.stackusage s.stackoffset 0 g.1 (nodeOf addr)
  let su := r.1
  let so := r.2.1
  let nh := r.2.2.1
  let node := r.2.2.2
  if nh = t.h then
    some { s with
      stackoffset := so
      treehash := s.treehash.set lvl { t with node := node, completed := 1, stackusage := su }
      leaves := s.leaves + 1 }
  else do
    let stack ← setA s.stack so node
    let levels ← setA s.stacklevels so nh
    some { s with
      stack := stack
      stacklevels := levels
      stackoffset := so + 1
      treehash := s.treehash.set lvl { t with stackusage := su + 1, nextIdx := t.nextIdx + 1 }
      leaves := s.leaves + 1 }

/-- `low` of instance `i`, xmss_core_fast.c:349-357. -/
def lowOf (p : Params) (s : BdsState) (i : Nat) : Option Nat := do
  let t ← s.treehash[i]?
  if t.completed ≠ 0 then some p.tree_height
  else if t.stackusage = 0 then some i
  else minHeightOnStack p s t

/-- The selection loop, xmss_core_fast.c:348-362: `k` instances remain, the next is `i`; locals `level`, `l_min`. -/
def pickLoop (p : Params) (s : BdsState) : Nat → Nat → Nat → Nat → Option Nat
  | 0, _, level, _ => some level
  | k + 1, i, level, lmin => do
    let low ← lowOf p s i
    if low < lmin then pickLoop p s k (i + 1) i low else pickLoop p s k (i + 1) level lmin

/-- The instance that `bds_treehash_update` picks, xmss_core_fast.c:346-362. -/
def pickLevel (p : Params) (s : BdsState) : Option Nat := pickLoop p s p.insts 0 p.insts p.tree_height

/-- `for (j = 0; j < updates; j++)` of `bds_treehash_update`, xmss_core_fast.c:345-368; also returns `used`. -/
def bdsUpdateLoop (H : Bytes → Bytes) (p : Params) (skSeed pubSeed : Bytes) (addr : Addr) :
    Nat → BdsState → Nat → Option (BdsState × Nat)
  | 0, s, used => some (s, used)
  | j + 1, s, used => do
    let level ← pickLevel p s
    if level = p.insts then some (s, used)
    else do
      let s ← treehashUpdate H p s level skSeed pubSeed addr
      bdsUpdateLoop H p skSeed pubSeed addr j s (used + 1)

/-- The `char` result of `bds_treehash_update` (xmss_core_fast.c:335, 369): value of a `char` (signed, 8 bit) converted from and back to a 32-bit `unsigned int`. -/
def charToUnsigned (x : Nat) : Nat := if x % 256 < 128 then x % 256 else 2 ^ 32 - 256 + x % 256

/-- `bds_treehash_update`, xmss_core_fast.c:335-370.  Returns the state and the return value `updates - used` as it is when
assigned to an `unsigned int` (xmss_core_fast.c:952). -/
def bdsTreehashUpdate (H : Bytes → Bytes) (p : Params) (s : BdsState) (updates : Nat) (skSeed pubSeed : Bytes)
    (addr : Addr) : Option (BdsState × Nat) := do
  let r ← bdsUpdateLoop H p skSeed pubSeed addr updates s 0
  some (r.1, charToUnsigned (updates - r.2))

/-- `bds_state_update`, xmss_core_fast.c:376-432; the return value (0 or -1) is ignored by all callers. -/
def bdsStateUpdate (H : Bytes → Bytes) (p : Params) (s : BdsState) (skSeed pubSeed : Bytes) (addr : Addr) :
    Option BdsState := do
  if s.nextLeaf = 1 <<< p.tree_height then some s
  else do
    let r ← addLeaf H p skSeed pubSeed s.nextLeaf s (ltreeOf addr) (otsOf addr) (nodeOf addr)
    some { r.1 with nextLeaf := r.1.nextLeaf + 1 }

/-- The loop computing `tau`, xmss_core_fast.c:463-468: `k` iterations remain, the next is `i`. -/
def tauLoop (leafIdx : Nat) : Nat → Nat → Nat
  | 0, i => i
  | k + 1, i => if (leafIdx >>> i) &&& 1 = 0 then i else tauLoop leafIdx k (i + 1)

/-- The loop xmss_core_fast.c:487-496: new authentication nodes below `tau`; `k` iterations remain, the next is `i`. -/
def authLoop (p : Params) (leafIdx : Nat) : Nat → Nat → BdsState → Option BdsState
  | 0, _, s => some s
  | k + 1, i, s => do
    let node ← (if i < p.insts then do
        let t ← s.treehash[i]?
        some t.node
      else
        s.retain[(1 <<< (p.tree_height - 1 - i)) + i - p.tree_height + (((leafIdx >>> i) - 1) >>> 1)]? : Option Bytes)
    let auth ← setA s.auth i node
    authLoop p leafIdx k (i + 1) { s with auth := auth }

/-- The loop xmss_core_fast.c:498-506: restart instances; `k` iterations remain, the next is `i`. -/
def restartLoop (p : Params) (leafIdx : Nat) : Nat → Nat → BdsState → Option BdsState
  | 0, _, s => some s
  | k + 1, i, s => do
    let startidx := leafIdx + 1 + 3 * (1 <<< i)
    let s ← (if startidx < 1 <<< p.tree_height then do
        let t ← s.treehash[i]?
        some { s with treehash := s.treehash.set i { t with h := i, nextIdx := startidx, completed := 0, stackusage := 0 } }
      else some s : Option BdsState)
    restartLoop p leafIdx k (i + 1) s

/-- `bds_round`, xmss_core_fast.c:439-508. -/
def bdsRound (H : Bytes → Bytes) (p : Params) (s : BdsState) (leafIdx : Nat) (skSeed pubSeed : Bytes) (addr : Addr) :
    Option BdsState := do
  let tau := tauLoop leafIdx p.tree_height 0
  let buf ← (if 0 < tau then do
      let a ← s.auth[tau - 1]?
      let k ← s.keep[(tau - 1) >>> 1]?
      some (a ++ k)
    else some [] : Option Bytes)
  let s ← (if (leafIdx >>> (tau + 1)) &&& 1 = 0 ∧ tau < p.tree_height - 1 then do
      let a ← s.auth[tau]?
      let keep ← setA s.keep (tau >>> 1) a
      some { s with keep := keep }
    else some s : Option BdsState)
  if tau = 0 then do
    let g := genLeafWots H p skSeed pubSeed (setLtreeAddr (ltreeOf addr) leafIdx) (setOtsAddr (otsOf addr) leafIdx)
    let auth ← setA s.auth 0 g.1
    some { s with auth := auth, leaves := s.leaves + 1 }
  else do
    let r := thashH H p buf pubSeed (setTreeIndex (setTreeHeight (nodeOf addr) (tau - 1)) (leafIdx >>> tau))
    let auth ← setA s.auth tau r.1
    let s ← authLoop p leafIdx tau 0 { s with auth := auth }
    restartLoop p leafIdx (if tau < p.insts then tau else p.insts) 0 s

end Xmss
