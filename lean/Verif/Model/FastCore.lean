import Verif.Model.Bds
import Verif.Model.Api
/-
Model of the rest of xmss_core_fast.c: storing the BDS states in the secret key (lines 38-136), swapping states (150-193),
key generation and signing (538-988), and of xmss.c linked with it.

`1 << tree_height` (an `int`) occurs throughout these functions and is undefined for tree_height ≥ 31; this is checked
once per entry point.
-/
namespace Xmss

/-! ### Secret key layout -/

/-- Bytes of one treehash instance, xmss_core_fast.c:57-70. -/
def instBytes (t : TreehashInst) : Bytes :=
  ullToBytes 1 t.h ++ ullToBytes 4 t.nextIdx ++ ullToBytes 1 t.stackusage ++ ullToBytes 1 t.completed ++ t.node

/-- Bytes of one state in the order of xmss_core_fast.c:47-76. -/
def stateBytes (s : BdsState) : Bytes :=
  s.stack.flatten ++ ullToBytes 4 s.stackoffset ++ (s.stacklevels.map UInt8.ofNat) ++ s.auth.flatten ++ s.keep.flatten
    ++ (s.treehash.map instBytes).flatten ++ s.retain.flatten ++ ullToBytes 4 s.nextLeaf

/-- The secret key after a call: `xmssmt_serialize_state` (xmss_core_fast.c:38-78) stores the scalars; the arrays and the
`wots_sigs` were changed in place.  Both together are one store behind the regular secret key. -/
def serializeStates (p : Params) (sk : Bytes) (states : List BdsState) (sigs : List Bytes) : Option Bytes :=
  wr sk (p.index_bytes + 4 * p.n) ((states.map stateBytes).flatten ++ sigs.flatten)

/-- Inner loop of `xmssmt_deserialize_state`, xmss_core_fast.c:110-125: `k` instances remain, at offset `off`. -/
def readInsts (p : Params) (sk : Bytes) : Nat → Nat → Option (List TreehashInst × Nat)
  | 0, off => some ([], off)
  | k + 1, off => do
    let h ← bytesToUll (← rd sk off 1)
    let nextIdx ← bytesToUll (← rd sk (off + 1) 4)
    let stackusage ← bytesToUll (← rd sk (off + 5) 1)
    let completed ← bytesToUll (← rd sk (off + 6) 1)
    let node ← rd sk (off + 7) p.n
    let r ← readInsts p sk k (off + 7 + p.n)
    some ({ h := h, nextIdx := nextIdx, stackusage := stackusage, completed := completed, node := node } :: r.1, r.2)

/-- Body of the loop of `xmssmt_deserialize_state`, xmss_core_fast.c:93-131: one state at offset `off`, and the offset
behind it. -/
def readState (p : Params) (sk : Bytes) (off : Nat) : Option (BdsState × Nat) := do
  let stack ← rd sk off ((p.tree_height + 1) * p.n)
  let off := off + (p.tree_height + 1) * p.n
  let stackoffset ← bytesToUll (← rd sk off 4)
  let off := off + 4
  let levels ← rd sk off (p.tree_height + 1)
  let off := off + (p.tree_height + 1)
  let auth ← rd sk off (p.tree_height * p.n)
  let off := off + p.tree_height * p.n
  let keep ← rd sk off ((p.tree_height >>> 1) * p.n)
  let off := off + (p.tree_height >>> 1) * p.n
  let insts ← readInsts p sk p.insts off
  let off := insts.2
  let retain ← rd sk off (((1 <<< p.bds_k) - p.bds_k - 1) * p.n)
  let off := off + ((1 <<< p.bds_k) - p.bds_k - 1) * p.n
  let nextLeaf ← bytesToUll (← rd sk off 4)
  let off := off + 4
  some ({ stack := chunks p.n (p.tree_height + 1) stack
          stackoffset := stackoffset
          stacklevels := levels.map UInt8.toNat
          auth := chunks p.n p.tree_height auth
          keep := chunks p.n (p.tree_height >>> 1) keep
          treehash := insts.1
          retain := chunks p.n ((1 <<< p.bds_k) - p.bds_k - 1) retain
          nextLeaf := nextLeaf
          leaves := 0 }, off)

/-- Outer loop of `xmssmt_deserialize_state`, xmss_core_fast.c:93-131: `k` states remain. -/
def readStates (p : Params) (sk : Bytes) : Nat → Nat → Option (List BdsState × Nat)
  | 0, off => some ([], off)
  | k + 1, off => do
    let s ← readState p sk off
    let r ← readStates p sk k s.2
    some (s.1 :: r.1, r.2)

/-- `xmssmt_deserialize_state`, xmss_core_fast.c:80-136: the `2*d - 1` states and the `d - 1` WOTS signatures. -/
def deserializeStates (p : Params) (sk : Bytes) : Option (List BdsState × List Bytes) := do
  let r ← readStates p sk (2 * p.d - 1) (p.index_bytes + 4 * p.n)
  let sigs ← rd sk r.2 ((p.d - 1) * p.wots_sig_bytes)
  some (r.1, chunks p.wots_sig_bytes (p.d - 1) sigs)

/-- Effect of `memset(sk + index_bytes, 0, ...)` (xmss_core_fast.c:618-619, 839-840) on a state read before: the arrays lie in the
secret key and become zero, the scalar fields are local copies and survive. -/
def BdsState.wipe (s : BdsState) : BdsState :=
  let z (l : List Bytes) : List Bytes := l.map (fun x => List.replicate x.length 0)
  { s with
    stack := z s.stack
    stacklevels := s.stacklevels.map (fun _ => 0)
    auth := z s.auth
    keep := z s.keep
    treehash := s.treehash.map (fun t => { t with node := List.replicate t.node.length 0 })
    retain := z s.retain }

/-- Total number of leaves computed (ghost; counts the calls of `gen_leaf_wots` in xmss_core_fast.c:251, 307, 403, 481). -/
def totalLeaves (states : List BdsState) : Nat := (states.map (·.leaves)).sum

/-- What a call of a fast sign function (xmss_core_fast.c:584, 785) leaves behind, with the (ghost) number of leaves computed. -/
structure FastOut extends SignOut where
  leaves : Nat
deriving DecidableEq, Repr

/-! ### XMSS -/

/-- `xmss_core_keypair`, xmss_core_fast.c:538-575; `seed` are the `3*n` bytes that the two calls of `randombytes` deliver. -/
def fastXmssKeypair (H : Bytes → Bytes) (p : Params) (pk sk seed : Bytes) : Option (Bytes × Bytes) := do
  if 31 ≤ p.tree_height then none
  else do
  let ds ← deserializeStates p sk
  let s ← ds.1[0]?
  let s := { s with stackoffset := 0, nextLeaf := 0 }
  let sk ← wr sk 0 [0, 0, 0, 0]
  let sk ← wr sk p.index_bytes (← rd seed 0 (2 * p.n))
  let sk ← wr sk (p.index_bytes + 3 * p.n) (← rd seed (2 * p.n) p.n)
  let pk ← wr pk p.n (← rd sk (p.index_bytes + 3 * p.n) p.n)
  let skSeed ← rd sk p.index_bytes p.n
  let pubSeed ← rd sk (p.index_bytes + 3 * p.n) p.n
  let r ← treehashInit H p s skSeed pubSeed Addr.zero
  let pk ← wr pk 0 r.1
  let sk ← wr sk (p.index_bytes + 2 * p.n) (← rd pk 0 p.n)
  let sk ← serializeStates p sk [r.2] ds.2
  some (pk, sk)

/-- `xmss_core_sign`, xmss_core_fast.c:584-720, from line 624 on (after the exhaustion check), with `sk`, the state and the
index as they are then. -/
def fastXmssSignBody (H : Bytes → Bytes) (p : Params) (sk sm m : Bytes) (s : BdsState) (sigs : List Bytes) (idx : Nat) :
    Option FastOut := do
  let skSeed ← rd sk p.index_bytes p.n
  let skPrf ← rd sk (p.index_bytes + p.n) p.n
  let pubSeed ← rd sk (p.index_bytes + 3 * p.n) p.n
  let sk ← wr sk 0 (ullToBytes 4 (idx + 1))
  let R := prf H p (ullToBytes 32 idx) skPrf
  let sm ← wr sm p.sig_bytes m
  let pubRoot ← rd sk (p.index_bytes + 2 * p.n) p.n
  if p.sig_bytes < p.padding_len + 3 * p.n then none
  else do
  let hm ← hashMessage H p R pubRoot idx sm (p.sig_bytes - p.padding_len - 3 * p.n) m.length
  let sm ← wr hm.2 0 (ullToBytes 4 idx)
  let sm ← wr sm 4 R
  let otsAddr := setOtsAddr (setType Addr.zero typeOts) idx
  let w := wotsSign H p hm.1 skSeed pubSeed otsAddr
  let sm ← wr sm (4 + p.n) w.1.flatten
  let sm ← wr sm (4 + p.n + p.wots_sig_bytes) s.auth.flatten
  let s ← (if idx < (1 <<< p.tree_height) - 1 then do
      let s ← bdsRound H p s idx skSeed pubSeed w.2
      let r ← bdsTreehashUpdate H p s (p.insts >>> 1) skSeed pubSeed w.2
      some r.1
    else some s : Option BdsState)
  let sm ← wr sm (4 + p.n + p.wots_sig_bytes + p.tree_height * p.n) m
  let sk ← serializeStates p sk [s] sigs
  some { ret := 0, sk := sk, sm := sm, smlen := 4 + p.n + p.wots_sig_bytes + p.tree_height * p.n + m.length,
         leaves := s.leaves }

/-- `xmss_core_sign` of the fast implementation, xmss_core_fast.c:584-720.  On exhaustion nothing is written to `sm` and
`*smlen` (previous value `smlen0`). -/
def fastXmssSign (H : Bytes → Bytes) (p : Params) (sk sm : Bytes) (smlen0 : Nat) (m : Bytes) : Option FastOut := do
  if 31 ≤ p.tree_height then none
  else do
  let ds ← deserializeStates p sk
  let s ← ds.1[0]?
  let idx ← bytesToUll (← rd sk 0 4)
  if 64 ≤ p.full_height then none
  else
    let last := 2 ^ p.full_height - 1
    if last ≤ idx then do
      let sk ← wipeKey p sk
      if last < idx ∨ (p.full_height = 64 ∧ idx = last) then
        some { ret := -2, sk := sk, sm := sm, smlen := smlen0, leaves := 0 }
      else fastXmssSignBody H p sk sm m s.wipe (ds.2.map fun x => List.replicate x.length 0) idx
    else fastXmssSignBody H p sk sm m s ds.2 idx

/-! ### XMSS^MT -/

/-- Loop of `xmssmt_core_keypair`, xmss_core_fast.c:763-768: `k` layers remain, the next is `i`; returns the states,
signatures, address and the last root. -/
def fastKeypairLoop (H : Bytes → Bytes) (p : Params) (skSeed pubSeed : Bytes) :
    Nat → Nat → List BdsState → List Bytes → Addr → Option (List BdsState × List Bytes × Addr)
  | 0, _, states, sigs, addr => some (states, sigs, addr)
  | k + 1, i, states, sigs, addr => do
    let s ← states[i]?
    let r ← treehashInit H p s skSeed pubSeed addr
    let states := states.set i r.2
    let addr := setLayerAddr addr (i + 1)
    let w := wotsSign H p r.1 skSeed pubSeed addr
    let sigs ← setA sigs i w.1.flatten
    fastKeypairLoop H p skSeed pubSeed k (i + 1) states sigs w.2

/-- `xmssmt_core_keypair`, xmss_core_fast.c:727-776. -/
def fastXmssmtKeypair (H : Bytes → Bytes) (p : Params) (pk sk seed : Bytes) : Option (Bytes × Bytes) := do
  if 31 ≤ p.tree_height then none
  else do
  let ds ← deserializeStates p sk
  let states := ds.1.map (fun s => { s with stackoffset := 0, nextLeaf := 0 })
  let sk ← wr sk 0 (List.replicate p.index_bytes 0)
  let sk ← wr sk p.index_bytes (← rd seed 0 (2 * p.n))
  let sk ← wr sk (p.index_bytes + 3 * p.n) (← rd seed (2 * p.n) p.n)
  let pk ← wr pk p.n (← rd sk (p.index_bytes + 3 * p.n) p.n)
  let skSeed ← rd sk p.index_bytes p.n
  let pubSeed ← rd pk p.n p.n
  let r ← fastKeypairLoop H p skSeed pubSeed (p.d - 1) 0 states ds.2 (setLayerAddr Addr.zero 0)
  let s ← r.1[p.d - 1]?
  let t ← treehashInit H p s skSeed pubSeed r.2.2
  let pk ← wr pk 0 t.1
  let sk ← wr sk (p.index_bytes + 2 * p.n) (← rd pk 0 p.n)
  let sk ← serializeStates p sk (r.1.set (p.d - 1) t.2) r.2.1
  some (pk, sk)

/-- `deep_state_swap(params, states + b, states + a)`, xmss_core_fast.c:165-193 with memswap 150-155: every component is
exchanged. -/
def swapStates (states : List BdsState) (a b : Nat) : Option (List BdsState) := do
  let x ← states[a]?
  let y ← states[b]?
  some ((states.set a y).set b x)

/-- Locals of `xmssmt_core_sign` in the loop of xmss_core_fast.c:942-980; `swap` is `needswap_upto + 1`. -/
structure MtLocals where
  states : List BdsState
  sigs : List Bytes
  updates : Nat
  swap : Nat
  addr : Addr
  otsAddr : Addr

/-- Branch of xmss_core_fast.c:944-961: the tree of layer `i` does not end with this signature. -/
def mtStepInner (H : Bytes → Bytes) (p : Params) (skSeed pubSeed : Bytes) (idx i : Nat) (v : MtLocals) :
    Option MtLocals := do
  let idxLeaf := (idx >>> (p.tree_height * i)) &&& ((1 <<< p.tree_height) - 1)
  let idxTree := idx >>> (p.tree_height * (i + 1))
  let addr := setTreeAddr (setLayerAddr v.addr i) idxTree
  let s ← v.states[i]?
  let s ← (if i = v.swap then bdsRound H p s idxLeaf skSeed pubSeed addr else some s : Option BdsState)
  let r ← bdsTreehashUpdate H p s v.updates skSeed pubSeed addr
  let states := v.states.set i r.1
  let addr := setTreeAddr addr (idxTree + 1)
  if (1 + idxTree) * (1 <<< p.tree_height) + idxLeaf < 2 ^ (p.full_height - p.tree_height * i) ∧ 0 < i ∧ 0 < r.2 then do
    let next ← states[p.d + i]?
    if next.nextLeaf < 2 ^ p.full_height then do
      let next ← bdsStateUpdate H p next skSeed pubSeed addr
      some { v with states := states.set (p.d + i) next, updates := r.2 - 1, addr := addr }
    else some { v with states := states, updates := r.2, addr := addr }
  else some { v with states := states, updates := r.2, addr := addr }

/-- Branch of xmss_core_fast.c:962-979: the tree of layer `i` ends with this signature; NEXT_i takes its place.
`updates--` wraps around modulo 2^32. -/
def mtStepSwap (H : Bytes → Bytes) (p : Params) (skSeed pubSeed : Bytes) (idx i : Nat) (v : MtLocals) :
    Option MtLocals := do
  let states ← swapStates v.states i (p.d + i)
  let otsAddr := setLayerAddr v.otsAddr (i + 1)
  let otsAddr := setTreeAddr otsAddr ((idx + 1) >>> ((i + 2) * p.tree_height))
  let otsAddr := setOtsAddr otsAddr (((idx >>> ((i + 1) * p.tree_height)) + 1) &&& ((1 <<< p.tree_height) - 1))
  let cur ← states[i]?
  let root ← cur.stack[0]?
  let w := wotsSign H p root skSeed pubSeed otsAddr
  let sigs ← setA v.sigs i w.1.flatten
  let next ← states[p.d + i]?
  let states := states.set (p.d + i) { next with stackoffset := 0, nextLeaf := 0 }
  let states := states.set i { cur with treehash := cur.treehash.map (fun t => { t with completed := 1 }) }
  some { states := states, sigs := sigs, updates := (v.updates + 2 ^ 32 - 1) % 2 ^ 32, swap := i + 1, addr := v.addr,
         otsAddr := w.2 }

/-- Body of the loop, xmss_core_fast.c:943-979. -/
def mtStep (H : Bytes → Bytes) (p : Params) (skSeed pubSeed : Bytes) (idx i : Nat) (v : MtLocals) : Option MtLocals :=
  if ¬ ((idx + 1) &&& ((1 <<< ((i + 1) * p.tree_height)) - 1) = 0) then mtStepInner H p skSeed pubSeed idx i v
  else if idx < 2 ^ p.full_height - 1 then mtStepSwap H p skSeed pubSeed idx i v
  else some v

/-- The loop, xmss_core_fast.c:942-980: `k` layers remain, the next is `i`. -/
def mtLoop (H : Bytes → Bytes) (p : Params) (skSeed pubSeed : Bytes) (idx : Nat) : Nat → Nat → MtLocals → Option MtLocals
  | 0, _, v => some v
  | k + 1, i, v => do
    let v ← mtStep H p skSeed pubSeed idx i v
    mtLoop H p skSeed pubSeed idx k (i + 1) v

/-- The loop of xmss_core_fast.c:921-932: stored WOTS signatures and authentication paths of the upper layers; `k` layers remain,
the next is `i`, `off` is the offset of `sm`. -/
def mtCopyLoop (p : Params) (states : List BdsState) (sigs : List Bytes) : Nat → Nat → Bytes → Nat → Option (Bytes × Nat)
  | 0, _, sm, off => some (sm, off)
  | k + 1, i, sm, off => do
    let sm ← wr sm off (← sigs[i - 1]?)
    let s ← states[i]?
    let sm ← wr sm (off + p.wots_sig_bytes) s.auth.flatten
    mtCopyLoop p states sigs k (i + 1) sm (off + p.wots_sig_bytes + p.tree_height * p.n)

/-- `xmssmt_core_sign`, xmss_core_fast.c:785-988, from line 847 on (after the exhaustion check). -/
def fastXmssmtSignBody (H : Bytes → Bytes) (p : Params) (sk sm m : Bytes) (states : List BdsState) (sigs : List Bytes)
    (idx : Nat) : Option FastOut := do
  let skSeed ← rd sk p.index_bytes p.n
  let skPrf ← rd sk (p.index_bytes + p.n) p.n
  let pubSeed ← rd sk (p.index_bytes + 3 * p.n) p.n
  let sk ← wr sk 0 (ullToBytes p.index_bytes (idx + 1))
  let R := prf H p (ullToBytes 32 idx) skPrf
  let sm ← wr sm p.sig_bytes m
  let pubRoot ← rd sk (p.index_bytes + 2 * p.n) p.n
  if p.sig_bytes < p.padding_len + 3 * p.n then none
  else do
  let hm ← hashMessage H p R pubRoot idx sm (p.sig_bytes - p.padding_len - 3 * p.n) m.length
  let sm ← wr hm.2 0 (ullToBytes p.index_bytes idx)
  let sm ← wr sm p.index_bytes R
  let idxTree := idx >>> p.tree_height
  let idxLeaf := idx &&& ((1 <<< p.tree_height) - 1)
  let otsAddr := setOtsAddr (setTreeAddr (setLayerAddr (setType Addr.zero typeOts) 0) idxTree) idxLeaf
  let w := wotsSign H p hm.1 skSeed pubSeed otsAddr
  let off := p.index_bytes + p.n
  let sm ← wr sm off w.1.flatten
  let off := off + p.wots_sig_bytes
  let s0 ← states[0]?
  let sm ← wr sm off s0.auth.flatten
  let c ← mtCopyLoop p states sigs (p.d - 1) 1 sm (off + p.tree_height * p.n)
  let addr := setTreeAddr Addr.zero (idxTree + 1)
  let states ← (if (1 + idxTree) * (1 <<< p.tree_height) + idxLeaf < 2 ^ p.full_height then do
      let next ← states[p.d]?
      let next ← bdsStateUpdate H p next skSeed pubSeed addr
      some (states.set p.d next)
    else some states : Option (List BdsState))
  let v ← mtLoop H p skSeed pubSeed idx p.d 0
    { states := states, sigs := sigs, updates := p.insts >>> 1, swap := 0, addr := addr, otsAddr := w.2 }
  let sm ← wr c.1 c.2 m
  let sk ← serializeStates p sk v.states v.sigs
  some { ret := 0, sk := sk, sm := sm, smlen := c.2 + m.length, leaves := totalLeaves v.states }

/-- `xmssmt_core_sign` of the fast implementation, xmss_core_fast.c:785-988. -/
def fastXmssmtSign (H : Bytes → Bytes) (p : Params) (sk sm : Bytes) (smlen0 : Nat) (m : Bytes) : Option FastOut := do
  if 31 ≤ p.tree_height then none
  else do
  let ds ← deserializeStates p sk
  let idx ← bytesToUll (← rd sk 0 p.index_bytes)
  if 64 ≤ p.full_height then none
  else
    let last := 2 ^ p.full_height - 1
    if last ≤ idx then do
      let sk ← wipeKey p sk
      if last < idx ∨ (p.full_height = 64 ∧ idx = last) then
        some { ret := -2, sk := sk, sm := sm, smlen := smlen0, leaves := 0 }
      else fastXmssmtSignBody H p sk sm m (ds.1.map BdsState.wipe) (ds.2.map fun x => List.replicate x.length 0) idx
    else fastXmssmtSignBody H p sk sm m ds.1 ds.2 idx

/-! ### xmss.c linked with xmss_core_fast.c -/

/-- `xmss_parse_oid`, params.c:254-375, as linked with xmss_core_fast.c (`sk_bytes` from xmss_core_fast.c:517-531). -/
def parseXmssFast : Nat → Option Params := xmssParseOid fastSkBytes
/-- `xmssmt_parse_oid`, params.c:377-698, as linked with xmss_core_fast.c (`sk_bytes` from xmss_core_fast.c:517-531). -/
def parseXmssmtFast : Nat → Option Params := xmssmtParseOid fastSkBytes

/-- `xmss_keypair` / `xmssmt_keypair`, xmss.c:10-26, 62-75. -/
def apiKeypairFast (P : Prims) (parse : Nat → Option Params)
    (core : (Bytes → Bytes) → Params → Bytes → Bytes → Bytes → Option (Bytes × Bytes))
    (pk sk : Bytes) (oid : Nat) (seed : Nat → Bytes) : Option (Int × Bytes × Bytes) :=
  match parse oid with
  | none => some (-1, pk, sk)
  | some p => do
    let pk ← wr pk 0 (oidBytes oid)
    let sk ← wr sk 0 (oidBytes oid)
    let H ← coreHash P p.func p.n
    let r ← core H p (pk.drop oidLen) (sk.drop oidLen) (seed p.n)
    some (0, pk.take oidLen ++ r.1, sk.take oidLen ++ r.2)

/-- `xmss_sign` / `xmssmt_sign`, xmss.c:28-43, 77-92. -/
def apiSignFast (P : Prims) (parse : Nat → Option Params)
    (core : (Bytes → Bytes) → Params → Bytes → Bytes → Nat → Bytes → Option FastOut)
    (sk sm : Bytes) (smlen0 : Nat) (m : Bytes) : Option FastOut := do
  let oid ← readOid sk
  match parse oid with
  | none => some { ret := -1, sk := sk, sm := sm, smlen := smlen0, leaves := 0 }
  | some p =>
    let H ← coreHash P p.func p.n
    let r ← core H p (sk.drop oidLen) sm smlen0 m
    some { r with sk := sk.take oidLen ++ r.sk }

/-- xmss.c:10-26 with xmss_core_fast.c -/
def xmssKeypairFast (P : Prims) := apiKeypairFast P parseXmssFast fastXmssKeypair
/-- xmss.c:28-43 with xmss_core_fast.c -/
def xmssSignFast (P : Prims) := apiSignFast P parseXmssFast fastXmssSign
/-- xmss.c:62-75 with xmss_core_fast.c -/
def xmssmtKeypairFast (P : Prims) := apiKeypairFast P parseXmssmtFast fastXmssmtKeypair
/-- xmss.c:77-92 with xmss_core_fast.c -/
def xmssmtSignFast (P : Prims) := apiSignFast P parseXmssmtFast fastXmssmtSign

end Xmss
