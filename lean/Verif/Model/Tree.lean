import Verif.Model.Wots
/-
Model of the tree functions of xmss_commons.c and of `treehash` of xmss_core.c.
-/
namespace Xmss

/-- Inner loop of `l_tree`, xmss_commons.c:29-34: `k` parents remain, the next is `i`; `nodes` is the array `wots_pk`
(an index outside the array reads the empty list / writes nothing here; that this does not happen follows from the
row lemma, which characterises every node of the row). -/
def ltreeRow (H : Bytes → Bytes) (p : Params) (pubSeed : Bytes) : Nat → Nat → List Bytes → Addr → List Bytes × Addr
  | 0, _, nodes, addr => (nodes, addr)
  | k + 1, i, nodes, addr =>
    let r := thashH H p (nodes.getD (2 * i) [] ++ nodes.getD (2 * i + 1) []) pubSeed (setTreeIndex addr i)
    ltreeRow H p pubSeed k (i + 1) (nodes.set i r.1) r.2

/-- `while (l > 1)` of `l_tree`, xmss_commons.c:27-47.  `fuel` bounds the number of iterations
(`l` strictly decreases, so `fuel = l` is enough). -/
def ltreeLoop (H : Bytes → Bytes) (p : Params) (pubSeed : Bytes) :
    Nat → Nat → Nat → List Bytes → Addr → List Bytes × Addr
  | 0, _, _, nodes, addr => (nodes, addr)
  | fuel + 1, l, height, nodes, addr =>
    if l ≤ 1 then (nodes, addr)
    else
      let r := ltreeRow H p pubSeed (l >>> 1) 0 nodes addr
      let s : List Bytes × Nat :=
        if l &&& 1 = 1 then (r.1.set (l >>> 1) (r.1.getD (l - 1) []), (l >>> 1) + 1) else (r.1, l >>> 1)
      ltreeLoop H p pubSeed fuel s.2 (height + 1) s.1 (setTreeHeight r.2 (height + 1))

/-- `l_tree`, xmss_commons.c:16-49; returns the leaf and the changed address. -/
def lTree (H : Bytes → Bytes) (p : Params) (wotsPk : List Bytes) (pubSeed : Bytes) (addr : Addr) : Bytes × Addr :=
  let r := ltreeLoop H p pubSeed p.wots_len p.wots_len 0 wotsPk (setTreeHeight addr 0)
  (r.1.getD 0 [], r.2)

/-- Arranging a node and its sibling from the authentication path in `buffer`,
xmss_commons.c:64-71 and 80-87. -/
def arrange (leafidx : Nat) (node sib : Bytes) : Bytes :=
  if leafidx &&& 1 = 1 then sib ++ node else node ++ sib

/-- Loop of `compute_root`, xmss_commons.c:74-89, and the final hash, 91-95.  `buffer` is the local `buffer`,
the list is the remaining authentication path, `i` the loop counter. -/
def computeRootLoop (H : Bytes → Bytes) (p : Params) (pubSeed : Bytes) :
    Nat → Nat → List Bytes → Bytes → Addr → Bytes × Addr
  | i, leafidx, [], buffer, addr =>
    let leafidx := leafidx >>> 1
    thashH H p buffer pubSeed (setTreeIndex (setTreeHeight addr i) leafidx)
  | i, leafidx, a :: auth, buffer, addr =>
    let leafidx := leafidx >>> 1
    let r := thashH H p buffer pubSeed (setTreeIndex (setTreeHeight addr i) leafidx)
    computeRootLoop H p pubSeed (i + 1) leafidx auth (arrange leafidx r.1 a) r.2

/-- `compute_root`, xmss_commons.c:54-96, for an authentication path of `tree_height ≥ 1` nodes
(the list has that length at every call; for `tree_height = 0` the C code reads out of bounds: `none`). -/
def computeRoot (H : Bytes → Bytes) (p : Params) (leaf : Bytes) (leafidx : Nat) (auth : List Bytes)
    (pubSeed : Bytes) (addr : Addr) : Option (Bytes × Addr) :=
  match auth with
  | [] => none
  | a :: rest => some (computeRootLoop H p pubSeed 0 leafidx rest (arrange leafidx leaf a) addr)

/-- `gen_leaf_wots`, xmss_commons.c:104-113; returns the leaf and both changed addresses. -/
def genLeafWots (H : Bytes → Bytes) (p : Params) (skSeed pubSeed : Bytes) (ltreeAddr otsAddr : Addr) :
    Bytes × Addr × Addr :=
  let r := wotsPkgen H p skSeed pubSeed otsAddr
  let r' := lTree H p r.1 pubSeed ltreeAddr
  (r'.1, r'.2, r.2)

/-- Writing node `x` to `auth_path + j*n` (xmss_core.c:58, 80); `auth` is the array of `tree_height` nodes. -/
def setAuth (auth : List Bytes) (j : Nat) (x : Bytes) : Option (List Bytes) :=
  if j < auth.length then some (auth.set j x) else none

/-- The `while` loop of `treehash`, xmss_core.c:62-83.  `node`, `h` are the top of the stack and its height, the list
is the rest of the stack, top first. -/
def treehashMerge (H : Bytes → Bytes) (p : Params) (pubSeed : Bytes) (leafIdx idx : Nat) :
    Bytes → Nat → List (Bytes × Nat) → List Bytes → Addr → Option (List (Bytes × Nat) × List Bytes × Addr)
  | node, h, [], auth, addr => some ([(node, h)], auth, addr)
  | node, h, (node2, h2) :: rest, auth, addr =>
    if h = h2 then do
      let treeIdx := idx >>> (h + 1)
      let r := thashH H p (node2 ++ node) pubSeed (setTreeIndex (setTreeHeight addr h) treeIdx)
      let auth ← (if (leafIdx >>> (h + 1)) ^^^ 1 = treeIdx then setAuth auth (h + 1) r.1 else some auth :
        Option (List Bytes))
      treehashMerge H p pubSeed leafIdx idx r.1 (h + 1) rest auth r.2
    else some ((node, h) :: (node2, h2) :: rest, auth, addr)

/-- The `for` loop of `treehash`, xmss_core.c:47-84: `k` leaves remain, the next one is `idx`.  Pushing onto a stack
that already holds `tree_height+1` nodes is undefined behaviour. -/
def treehashLoop (H : Bytes → Bytes) (p : Params) (skSeed pubSeed : Bytes) (leafIdx : Nat) :
    Nat → Nat → List (Bytes × Nat) → List Bytes → (ots ltree node : Addr) → Option (List (Bytes × Nat) × List Bytes)
  | 0, _, stack, auth, _, _, _ => some (stack, auth)
  | k + 1, idx, stack, auth, otsAddr, ltreeAddr, nodeAddr => do
    let ltreeAddr := setLtreeAddr ltreeAddr idx
    let otsAddr := setOtsAddr otsAddr idx
    let r := genLeafWots H p skSeed pubSeed ltreeAddr otsAddr
    if p.tree_height + 1 ≤ stack.length then none
    else
      let auth ← (if leafIdx ^^^ 1 = idx then setAuth auth 0 r.1 else some auth : Option (List Bytes))
      let s ← treehashMerge H p pubSeed leafIdx idx r.1 0 stack auth nodeAddr
      treehashLoop H p skSeed pubSeed leafIdx k (idx + 1) s.1 s.2.1 r.2.2 r.2.1 s.2.2

/-- `treehash`, xmss_core.c:19-86; `auth0` is the previous content of the `auth_path` array.  Returns the root (the
bottom node of the stack) and the authentication path. -/
def treehash (H : Bytes → Bytes) (p : Params) (skSeed pubSeed : Bytes) (leafIdx : Nat) (subtree : Addr)
    (auth0 : List Bytes) : Option (Bytes × List Bytes) := do
  let otsAddr := setType (copySubtreeAddr Addr.zero subtree) typeOts
  let ltreeAddr := setType (copySubtreeAddr Addr.zero subtree) typeLtree
  let nodeAddr := setType (copySubtreeAddr Addr.zero subtree) typeHashtree
  let r ← treehashLoop H p skSeed pubSeed leafIdx (2 ^ p.tree_height) 0 [] auth0 otsAddr ltreeAddr nodeAddr
  match r.1.getLast? with
  | none => none
  | some top => some (top.1, r.2)

end Xmss
