import Verif.Model.TraceFast
import Verif.Proof.Trace
/-
Every function of Model/TraceFast computes what the function of the same name without record computes.
-/
namespace Xmss
open Tr

variable {H : Bytes → Bytes} {p : Params}

/-- Erasing records. -/
macro "vsimp" "[" l:Lean.Parser.Tactic.simpLemma,* "]" : tactic => `(tactic| simp (maxSteps := 2000000) only [val_bind, val_opt, val_mk, val_lift, val_pure, val_ite,
  thashHT_eq, genLeafWotsT_eq, prfT_eq, hashMessageT_eq, wotsSignT_val, Option.bind_some, Option.bind_eq_bind, $l,*])

theorem mergeLoopT_val (pubSeed : Bytes) (idx : Nat) : ∀ (fuel : Nat) (s : BdsState) (a : Addr),
    val (mergeLoopT H p pubSeed idx fuel s a) = mergeLoop H p pubSeed idx fuel s a
  | 0, _, _ => rfl
  | fuel + 1, s, a => by
    vsimp [mergeLoopT, mergeLoop, mergeLoopT_val pubSeed idx fuel]

theorem addLeafT_val (skSeed pubSeed : Bytes) (idx : Nat) (s : BdsState) (l o n : Addr) :
    val (addLeafT H p skSeed pubSeed idx s l o n) = addLeaf H p skSeed pubSeed idx s l o n := by
  vsimp [addLeafT, addLeaf, mergeLoopT_val]

theorem addLeavesT_val (skSeed pubSeed : Bytes) : ∀ (k idx : Nat) (s : BdsState) (l o n : Addr),
    val (addLeavesT H p skSeed pubSeed k idx s l o n) = addLeaves H p skSeed pubSeed k idx s l o n
  | 0, _, _, _, _, _ => rfl
  | k + 1, idx, s, l, o, n => by
    vsimp [addLeavesT, addLeaves, addLeafT_val, addLeavesT_val skSeed pubSeed k]

theorem treehashInitT_val (s : BdsState) (skSeed pubSeed : Bytes) (a : Addr) :
    val (treehashInitT H p s skSeed pubSeed a) = treehashInit H p s skSeed pubSeed a := by
  vsimp [treehashInitT, treehashInit, addLeavesT_val]

theorem updateMergeT_val (pubSeed : Bytes) (s : BdsState) (ni : Nat) : ∀ (su so nh : Nat) (x : Bytes) (a : Addr),
    val (updateMergeT H p pubSeed s ni su so nh x a) = updateMerge H p pubSeed s ni su so nh x a
  | 0, _, _, _, _ => rfl
  | su + 1, so, nh, x, a => by
    vsimp [updateMergeT, updateMerge, updateMergeT_val pubSeed s ni su]

theorem treehashUpdateT_val (s : BdsState) (lvl : Nat) (skSeed pubSeed : Bytes) (a : Addr) :
    val (treehashUpdateT H p s lvl skSeed pubSeed a) = treehashUpdate H p s lvl skSeed pubSeed a := by
  vsimp [treehashUpdateT, treehashUpdate, updateMergeT_val]

theorem bdsUpdateLoopT_val (skSeed pubSeed : Bytes) (a : Addr) : ∀ (j : Nat) (s : BdsState) (u : Nat),
    val (bdsUpdateLoopT H p skSeed pubSeed a j s u) = bdsUpdateLoop H p skSeed pubSeed a j s u
  | 0, _, _ => rfl
  | j + 1, s, u => by
    vsimp [bdsUpdateLoopT, bdsUpdateLoop, treehashUpdateT_val, bdsUpdateLoopT_val skSeed pubSeed a j]

theorem bdsTreehashUpdateT_val (s : BdsState) (u : Nat) (skSeed pubSeed : Bytes) (a : Addr) :
    val (bdsTreehashUpdateT H p s u skSeed pubSeed a) = bdsTreehashUpdate H p s u skSeed pubSeed a := by
  vsimp [bdsTreehashUpdateT, bdsTreehashUpdate, bdsUpdateLoopT_val]

theorem bdsStateUpdateT_val (s : BdsState) (skSeed pubSeed : Bytes) (a : Addr) :
    val (bdsStateUpdateT H p s skSeed pubSeed a) = bdsStateUpdate H p s skSeed pubSeed a := by
  vsimp [bdsStateUpdateT, bdsStateUpdate, addLeafT_val]

theorem bdsRoundT_val (s : BdsState) (i : Nat) (skSeed pubSeed : Bytes) (a : Addr) :
    val (bdsRoundT H p s i skSeed pubSeed a) = bdsRound H p s i skSeed pubSeed a := by
  vsimp [bdsRoundT, bdsRound]

theorem fastXmssKeypairT_val (pk sk seed : Bytes) : val (fastXmssKeypairT H p pk sk seed) = fastXmssKeypair H p pk sk seed := by
  vsimp [fastXmssKeypairT, fastXmssKeypair, treehashInitT_val]

theorem fastXmssSignBodyT_val (sk sm m : Bytes) (s : BdsState) (sigs : List Bytes) (idx : Nat) :
    val (fastXmssSignBodyT H p sk sm m s sigs idx) = fastXmssSignBody H p sk sm m s sigs idx := by
  vsimp [fastXmssSignBodyT, fastXmssSignBody, bdsRoundT_val, bdsTreehashUpdateT_val]

theorem fastXmssSignT_val (sk sm : Bytes) (l0 : Nat) (m : Bytes) :
    val (fastXmssSignT H p sk sm l0 m) = fastXmssSign H p sk sm l0 m := by
  vsimp [fastXmssSignT, fastXmssSign, fastXmssSignBodyT_val]

theorem fastKeypairLoopT_val (skSeed pubSeed : Bytes) : ∀ (k i : Nat) (st : List BdsState) (sg : List Bytes) (a : Addr),
    val (fastKeypairLoopT H p skSeed pubSeed k i st sg a) = fastKeypairLoop H p skSeed pubSeed k i st sg a
  | 0, _, _, _, _ => rfl
  | k + 1, i, st, sg, a => by
    vsimp [fastKeypairLoopT, fastKeypairLoop, treehashInitT_val, fastKeypairLoopT_val skSeed pubSeed k]

set_option maxHeartbeats 1000000 in
theorem fastXmssmtKeypairT_val (pk sk seed : Bytes) : val (fastXmssmtKeypairT H p pk sk seed) = fastXmssmtKeypair H p pk sk seed := by
  vsimp [fastXmssmtKeypairT, fastXmssmtKeypair, treehashInitT_val, fastKeypairLoopT_val]

theorem mtStepInnerT_val (skSeed pubSeed : Bytes) (idx i : Nat) (v : MtLocals) :
    val (mtStepInnerT H p skSeed pubSeed idx i v) = mtStepInner H p skSeed pubSeed idx i v := by
  vsimp [mtStepInnerT, mtStepInner, bdsRoundT_val, bdsTreehashUpdateT_val, bdsStateUpdateT_val]

theorem mtStepSwapT_val (skSeed pubSeed : Bytes) (idx i : Nat) (v : MtLocals) :
    val (mtStepSwapT H p skSeed pubSeed idx i v) = mtStepSwap H p skSeed pubSeed idx i v := by
  vsimp [mtStepSwapT, mtStepSwap]

theorem mtStepT_val (skSeed pubSeed : Bytes) (idx i : Nat) (v : MtLocals) :
    val (mtStepT H p skSeed pubSeed idx i v) = mtStep H p skSeed pubSeed idx i v := by
  vsimp [mtStepT, mtStep, mtStepInnerT_val, mtStepSwapT_val]

theorem mtLoopT_val (skSeed pubSeed : Bytes) (idx : Nat) : ∀ (k i : Nat) (v : MtLocals),
    val (mtLoopT H p skSeed pubSeed idx k i v) = mtLoop H p skSeed pubSeed idx k i v
  | 0, _, _ => rfl
  | k + 1, i, v => by
    vsimp [mtLoopT, mtLoop, mtStepT_val, mtLoopT_val skSeed pubSeed idx k]

theorem fastXmssmtSignBodyT_val (sk sm m : Bytes) (st : List BdsState) (sigs : List Bytes) (idx : Nat) :
    val (fastXmssmtSignBodyT H p sk sm m st sigs idx) = fastXmssmtSignBody H p sk sm m st sigs idx := by
  vsimp [fastXmssmtSignBodyT, fastXmssmtSignBody, bdsStateUpdateT_val, mtLoopT_val]

theorem fastXmssmtSignT_val (sk sm : Bytes) (l0 : Nat) (m : Bytes) :
    val (fastXmssmtSignT H p sk sm l0 m) = fastXmssmtSign H p sk sm l0 m := by
  vsimp [fastXmssmtSignT, fastXmssmtSign, fastXmssmtSignBodyT_val]

theorem apiKeypairFastT_val (P : Prims) (parse : Nat → Option Params) {coreT core}
    (hc : ∀ H p pk sk seed, val (coreT H p pk sk seed) = core H p pk sk seed) (pk sk : Bytes) (oid : Nat) (seed : Nat → Bytes) :
    val (apiKeypairFastT P parse coreT pk sk oid seed) = apiKeypairFast P parse core pk sk oid seed := by
  rw [apiKeypairFastT, apiKeypairFast]
  cases parse oid with
  | none => rfl
  | some p => vsimp [hc]

theorem apiSignFastT_val (P : Prims) (parse : Nat → Option Params) {coreT core}
    (hc : ∀ H p sk sm l0 m, val (coreT H p sk sm l0 m) = core H p sk sm l0 m) (sk sm : Bytes) (l0 : Nat) (m : Bytes) :
    val (apiSignFastT P parse coreT sk sm l0 m) = apiSignFast P parse core sk sm l0 m := by
  rw [apiSignFastT, apiSignFast]
  vsimp []
  congr 1
  funext oid
  cases parse oid with
  | none => rfl
  | some p => vsimp [hc]

end Xmss
