import Verif.Proof.TraceFast
/-
The record with inputs, inputs forgotten, is the record of lengths: hence the functions have the same values with either record.
-/
namespace Xmss
open Tr

/-- Forget the inputs. -/
def lens {α : Type} (t : TrG (Nat × Bytes) α) : Tr α := Option.map (fun r => (r.1, r.2.map Prod.fst)) t

namespace Lens
variable {α β : Type}

theorem bind (t : TrG (Nat × Bytes) α) (f : α → TrG (Nat × Bytes) β) : lens (t >>= f) = lens t >>= fun a => lens (f a) := by
  cases t with
  | none => rfl
  | some r =>
    obtain ⟨a, l⟩ := r
    show lens (mk a l >>= f) = mk a (l.map Prod.fst) >>= _
    rw [bind_mk, bind_mk]
    cases h : f a with
    | none => rfl
    | some r' => exact congrArg some (Prod.ext rfl (List.map_append ..))

theorem pure (a : α) : lens (Pure.pure a) = Pure.pure a := rfl
theorem opt (o : Option α) : lens (Tr.opt o) = Tr.opt o := by cases o <;> rfl
theorem ite {c : Prop} [Decidable c] (t u : TrG (Nat × Bytes) α) : lens (if c then t else u) = if c then lens t else lens u := by
  split <;> rfl

variable {H : Bytes → Bytes} {p : Params}

theorem core (k : Nat) (x : Bytes) : lens (coreHashT H k x) = coreHashT H k x := rfl
theorem prfT (a b : Bytes) : lens (Xmss.prfT H p a b) = Xmss.prfT H p a b := rfl
theorem prfKeygenT (a b : Bytes) : lens (Xmss.prfKeygenT H p a b) = Xmss.prfKeygenT H p a b := rfl
theorem hashMessageT (R root : Bytes) (idx : Nat) (buf : Bytes) (off mlen : Nat) :
    lens (Xmss.hashMessageT H p R root idx buf off mlen) = Xmss.hashMessageT H p R root idx buf off mlen := by
  simp only [Xmss.hashMessageT, bind, opt, core, pure]
theorem thashHT (x s : Bytes) (a : Addr) : lens (Xmss.thashHT H p x s a) = Xmss.thashHT H p x s a := rfl
theorem thashFT (x s : Bytes) (a : Addr) : lens (Xmss.thashFT H p x s a) = Xmss.thashFT H p x s a := rfl

theorem expandSeedLoopT (x s : Bytes) : ∀ (k i : Nat) (a : Addr),
    lens (Xmss.expandSeedLoopT H p x s k i a) = Xmss.expandSeedLoopT H p x s k i a
  | 0, _, _ => rfl
  | k + 1, i, a => by simp only [Xmss.expandSeedLoopT, bind, prfKeygenT, expandSeedLoopT x s k, pure]
theorem expandSeedT (x s : Bytes) (a : Addr) : lens (Xmss.expandSeedT H p x s a) = Xmss.expandSeedT H p x s a :=
  expandSeedLoopT x s _ _ _
theorem genChainLoopT (s : Bytes) : ∀ (k i : Nat) (x : Bytes) (a : Addr),
    lens (Xmss.genChainLoopT H p s k i x a) = Xmss.genChainLoopT H p s k i x a
  | 0, _, _, _ => rfl
  | k + 1, i, x, a => by simp only [Xmss.genChainLoopT, bind, thashFT, genChainLoopT s k]
theorem genChainT (x : Bytes) (i k : Nat) (s : Bytes) (a : Addr) : lens (Xmss.genChainT H p x i k s a) = Xmss.genChainT H p x i k s a :=
  genChainLoopT s _ _ _ _
theorem chainsLoopT (s : Bytes) : ∀ (i : Nat) (cs : List (Bytes × Nat × Nat)) (a : Addr),
    lens (Xmss.chainsLoopT H p s i cs a) = Xmss.chainsLoopT H p s i cs a
  | _, [], _ => rfl
  | i, (x, k, l) :: cs, a => by simp only [Xmss.chainsLoopT, bind, genChainT, chainsLoopT s _ cs, pure]
theorem wotsPkgenT (x s : Bytes) (a : Addr) : lens (Xmss.wotsPkgenT H p x s a) = Xmss.wotsPkgenT H p x s a := by
  simp only [Xmss.wotsPkgenT, bind, expandSeedT, chainsLoopT]
theorem wotsSignT (m x s : Bytes) (a : Addr) : lens (Xmss.wotsSignT H p m x s a) = Xmss.wotsSignT H p m x s a := by
  simp only [Xmss.wotsSignT, bind, expandSeedT, chainsLoopT]
theorem wotsPkFromSigT (l : List Bytes) (m s : Bytes) (a : Addr) :
    lens (Xmss.wotsPkFromSigT H p l m s a) = Xmss.wotsPkFromSigT H p l m s a := chainsLoopT _ _ _ _
theorem ltreeRowT (s : Bytes) : ∀ (k i : Nat) (l : List Bytes) (a : Addr), lens (Xmss.ltreeRowT H p s k i l a) = Xmss.ltreeRowT H p s k i l a
  | 0, _, _, _ => rfl
  | k + 1, i, l, a => by simp only [Xmss.ltreeRowT, bind, thashHT, ltreeRowT s k]
theorem ltreeLoopT (s : Bytes) : ∀ (k l h : Nat) (ns : List Bytes) (a : Addr),
    lens (Xmss.ltreeLoopT H p s k l h ns a) = Xmss.ltreeLoopT H p s k l h ns a
  | 0, _, _, _, _ => rfl
  | k + 1, l, h, ns, a => by simp only [Xmss.ltreeLoopT, bind, ite, pure, ltreeRowT, ltreeLoopT s k]
theorem lTreeT (l : List Bytes) (s : Bytes) (a : Addr) : lens (Xmss.lTreeT H p l s a) = Xmss.lTreeT H p l s a := by
  simp only [Xmss.lTreeT, bind, ltreeLoopT, pure]
theorem computeRootLoopT (s : Bytes) : ∀ (i k : Nat) (l : List Bytes) (b : Bytes) (a : Addr),
    lens (Xmss.computeRootLoopT H p s i k l b a) = Xmss.computeRootLoopT H p s i k l b a
  | _, _, [], _, _ => rfl
  | i, k, x :: l, b, a => by simp only [Xmss.computeRootLoopT, bind, thashHT, computeRootLoopT s _ _ l]
theorem computeRootT (x : Bytes) (i : Nat) (l : List Bytes) (s : Bytes) (a : Addr) :
    lens (Xmss.computeRootT H p x i l s a) = Xmss.computeRootT H p x i l s a := by
  cases l with
  | nil => rfl
  | cons y l => exact computeRootLoopT _ _ _ _ _ _
theorem genLeafWotsT (x s : Bytes) (l o : Addr) : lens (Xmss.genLeafWotsT H p x s l o) = Xmss.genLeafWotsT H p x s l o := by
  simp only [Xmss.genLeafWotsT, bind, wotsPkgenT, lTreeT, pure]
theorem treehashMergeT (s : Bytes) (j i : Nat) : ∀ (x : Bytes) (h : Nat) (st : List (Bytes × Nat)) (au : List Bytes) (a : Addr),
    lens (Xmss.treehashMergeT H p s j i x h st au a) = Xmss.treehashMergeT H p s j i x h st au a
  | _, _, [], _, _ => rfl
  | x, h, (x2, h2) :: st, au, a => by
    simp only [Xmss.treehashMergeT, ite, bind, thashHT, opt, treehashMergeT s j i _ _ st, pure]
theorem treehashLoopT (x s : Bytes) (j : Nat) : ∀ (k i : Nat) (st : List (Bytes × Nat)) (au : List Bytes) (o l n : Addr),
    lens (Xmss.treehashLoopT H p x s j k i st au o l n) = Xmss.treehashLoopT H p x s j k i st au o l n
  | 0, _, _, _, _, _, _ => rfl
  | k + 1, i, st, au, o, l, n => by
    simp only [Xmss.treehashLoopT, bind, genLeafWotsT, ite, opt, treehashMergeT, treehashLoopT x s j k]
theorem treehashT (x s : Bytes) (j : Nat) (a : Addr) (au : List Bytes) :
    lens (Xmss.treehashT H p x s j a au) = Xmss.treehashT H p x s j a au := by
  rw [Xmss.treehashT, Xmss.treehashT, bind, treehashLoopT]
  congr 1
  funext r
  cases r.1.getLast? <;> rfl
theorem coreSeedKeypairT (pk sk seed : Bytes) : lens (Xmss.coreSeedKeypairT H p pk sk seed) = Xmss.coreSeedKeypairT H p pk sk seed := by
  simp only [Xmss.coreSeedKeypairT, bind, opt, treehashT, pure]
theorem signLayersT (x s : Bytes) : ∀ (k i idx : Nat) (a : Addr) (root sm : Bytes) (off : Nat),
    lens (Xmss.signLayersT H p x s k i idx a root sm off) = Xmss.signLayersT H p x s k i idx a root sm off
  | 0, _, _, _, _, _, _ => rfl
  | k + 1, i, idx, a, root, sm, off => by
    simp only [Xmss.signLayersT, bind, opt, wotsSignT, treehashT, signLayersT x s k]
theorem coreSignBodyT (sk sm : Bytes) (l i : Nat) : lens (Xmss.coreSignBodyT H p sk sm l i) = Xmss.coreSignBodyT H p sk sm l i := by
  simp only [Xmss.coreSignBodyT, bind, opt, prfT, ite, hashMessageT, signLayersT, pure]
theorem coreSignT (sk sm m : Bytes) : lens (Xmss.coreSignT H p sk sm m) = Xmss.coreSignT H p sk sm m := by
  simp only [Xmss.coreSignT, bind, opt, ite, coreSignBodyT, pure]
theorem openLayersT (s sm : Bytes) : ∀ (k i idx : Nat) (o l n : Addr) (root : Bytes) (off : Nat),
    lens (Xmss.openLayersT H p s sm k i idx o l n root off) = Xmss.openLayersT H p s sm k i idx o l n root off
  | 0, _, _, _, _, _, _, _ => rfl
  | k + 1, i, idx, o, l, n, root, off => by
    simp only [Xmss.openLayersT, bind, opt, wotsPkFromSigT, lTreeT, computeRootT, openLayersT s sm k]
theorem coreSignOpenT (m sm : Bytes) (l : Nat) (pk : Bytes) : lens (Xmss.coreSignOpenT H p m sm l pk) = Xmss.coreSignOpenT H p m sm l pk := by
  simp only [Xmss.coreSignOpenT, bind, opt, ite, hashMessageT, openLayersT, pure]
theorem apiKeypairT (P : Prims) (parse : Nat → Option Params) (pk sk : Bytes) (oid : Nat) (seed : Nat → Bytes) :
    lens (Xmss.apiKeypairT P parse pk sk oid seed) = Xmss.apiKeypairT P parse pk sk oid seed := by
  rw [Xmss.apiKeypairT, Xmss.apiKeypairT]
  cases parse oid with
  | none => rfl
  | some p => simp only [bind, opt, coreSeedKeypairT, pure]
theorem apiSignT (P : Prims) (parse : Nat → Option Params) (sk sm : Bytes) (l : Nat) (m : Bytes) :
    lens (Xmss.apiSignT P parse sk sm l m) = Xmss.apiSignT P parse sk sm l m := by
  rw [Xmss.apiSignT, Xmss.apiSignT, bind, opt]
  congr 1
  funext oid
  cases parse oid with
  | none => rfl
  | some p => simp only [bind, opt, coreSignT, pure]
theorem apiOpenT (P : Prims) (parse : Nat → Option Params) (m : Bytes) (l : Nat) (sm : Bytes) (k : Nat) (pk : Bytes) :
    lens (Xmss.apiOpenT P parse m l sm k pk) = Xmss.apiOpenT P parse m l sm k pk := by
  rw [Xmss.apiOpenT, Xmss.apiOpenT, bind, opt]
  congr 1
  funext oid
  cases parse oid with
  | none => rfl
  | some p => simp only [bind, opt, coreSignOpenT]

/-! ### xmss_core_fast.c -/

theorem mergeLoopT (s : Bytes) (i : Nat) : ∀ (k : Nat) (st : BdsState) (a : Addr),
    lens (Xmss.mergeLoopT H p s i k st a) = Xmss.mergeLoopT H p s i k st a
  | 0, _, _ => rfl
  | k + 1, st, a => by simp only [Xmss.mergeLoopT, ite, bind, opt, thashHT, mergeLoopT s i k, pure]
theorem addLeafT (x s : Bytes) (i : Nat) (st : BdsState) (l o n : Addr) :
    lens (Xmss.addLeafT H p x s i st l o n) = Xmss.addLeafT H p x s i st l o n := by
  simp only [Xmss.addLeafT, bind, opt, genLeafWotsT, mergeLoopT, pure]
theorem addLeavesT (x s : Bytes) : ∀ (k i : Nat) (st : BdsState) (l o n : Addr),
    lens (Xmss.addLeavesT H p x s k i st l o n) = Xmss.addLeavesT H p x s k i st l o n
  | 0, _, _, _, _, _ => rfl
  | k + 1, i, st, l, o, n => by simp only [Xmss.addLeavesT, bind, addLeafT, addLeavesT x s k]
theorem treehashInitT (st : BdsState) (x s : Bytes) (a : Addr) : lens (Xmss.treehashInitT H p st x s a) = Xmss.treehashInitT H p st x s a := by
  simp only [Xmss.treehashInitT, bind, addLeavesT, opt, pure]
theorem updateMergeT (s : Bytes) (st : BdsState) (i : Nat) : ∀ (k so nh : Nat) (x : Bytes) (a : Addr),
    lens (Xmss.updateMergeT H p s st i k so nh x a) = Xmss.updateMergeT H p s st i k so nh x a
  | 0, _, _, _, _ => rfl
  | k + 1, so, nh, x, a => by simp only [Xmss.updateMergeT, ite, bind, opt, thashHT, updateMergeT s st i k, pure]
theorem treehashUpdateT (st : BdsState) (l : Nat) (x s : Bytes) (a : Addr) :
    lens (Xmss.treehashUpdateT H p st l x s a) = Xmss.treehashUpdateT H p st l x s a := by
  simp only [Xmss.treehashUpdateT, bind, opt, genLeafWotsT, updateMergeT, ite, pure]
theorem bdsUpdateLoopT (x s : Bytes) (a : Addr) : ∀ (k : Nat) (st : BdsState) (u : Nat),
    lens (Xmss.bdsUpdateLoopT H p x s a k st u) = Xmss.bdsUpdateLoopT H p x s a k st u
  | 0, _, _ => rfl
  | k + 1, st, u => by simp only [Xmss.bdsUpdateLoopT, bind, opt, ite, treehashUpdateT, bdsUpdateLoopT x s a k, pure]
theorem bdsTreehashUpdateT (st : BdsState) (u : Nat) (x s : Bytes) (a : Addr) :
    lens (Xmss.bdsTreehashUpdateT H p st u x s a) = Xmss.bdsTreehashUpdateT H p st u x s a := by
  simp only [Xmss.bdsTreehashUpdateT, bind, bdsUpdateLoopT, pure]
theorem bdsStateUpdateT (st : BdsState) (x s : Bytes) (a : Addr) :
    lens (Xmss.bdsStateUpdateT H p st x s a) = Xmss.bdsStateUpdateT H p st x s a := by
  simp only [Xmss.bdsStateUpdateT, ite, bind, addLeafT, pure]
theorem bdsRoundT (st : BdsState) (i : Nat) (x s : Bytes) (a : Addr) :
    lens (Xmss.bdsRoundT H p st i x s a) = Xmss.bdsRoundT H p st i x s a := by
  simp only [Xmss.bdsRoundT, bind, opt, ite, genLeafWotsT, thashHT, pure]
theorem fastXmssKeypairT (pk sk seed : Bytes) : lens (Xmss.fastXmssKeypairT H p pk sk seed) = Xmss.fastXmssKeypairT H p pk sk seed := by
  simp only [Xmss.fastXmssKeypairT, ite, bind, opt, treehashInitT, pure]
theorem fastXmssSignBodyT (sk sm m : Bytes) (st : BdsState) (l : List Bytes) (i : Nat) :
    lens (Xmss.fastXmssSignBodyT H p sk sm m st l i) = Xmss.fastXmssSignBodyT H p sk sm m st l i := by
  simp only [Xmss.fastXmssSignBodyT, ite, bind, opt, prfT, hashMessageT, wotsSignT, bdsRoundT, bdsTreehashUpdateT, pure]
theorem fastXmssSignT (sk sm : Bytes) (l : Nat) (m : Bytes) : lens (Xmss.fastXmssSignT H p sk sm l m) = Xmss.fastXmssSignT H p sk sm l m := by
  simp only [Xmss.fastXmssSignT, ite, bind, opt, fastXmssSignBodyT, pure]
theorem fastKeypairLoopT (x s : Bytes) : ∀ (k i : Nat) (st : List BdsState) (l : List Bytes) (a : Addr),
    lens (Xmss.fastKeypairLoopT H p x s k i st l a) = Xmss.fastKeypairLoopT H p x s k i st l a
  | 0, _, _, _, _ => rfl
  | k + 1, i, st, l, a => by simp only [Xmss.fastKeypairLoopT, bind, opt, treehashInitT, wotsSignT, fastKeypairLoopT x s k]
theorem fastXmssmtKeypairT (pk sk seed : Bytes) :
    lens (Xmss.fastXmssmtKeypairT H p pk sk seed) = Xmss.fastXmssmtKeypairT H p pk sk seed := by
  simp only [Xmss.fastXmssmtKeypairT, ite, bind, opt, treehashInitT, fastKeypairLoopT, pure]
theorem mtStepInnerT (x s : Bytes) (idx i : Nat) (v : MtLocals) :
    lens (Xmss.mtStepInnerT H p x s idx i v) = Xmss.mtStepInnerT H p x s idx i v := by
  simp only [Xmss.mtStepInnerT, ite, bind, opt, bdsRoundT, bdsTreehashUpdateT, bdsStateUpdateT, pure]
theorem mtStepSwapT (x s : Bytes) (idx i : Nat) (v : MtLocals) :
    lens (Xmss.mtStepSwapT H p x s idx i v) = Xmss.mtStepSwapT H p x s idx i v := by
  simp only [Xmss.mtStepSwapT, bind, opt, wotsSignT, pure]
theorem mtStepT (x s : Bytes) (idx i : Nat) (v : MtLocals) : lens (Xmss.mtStepT H p x s idx i v) = Xmss.mtStepT H p x s idx i v := by
  simp only [Xmss.mtStepT, ite, mtStepInnerT, mtStepSwapT, pure]
theorem mtLoopT (x s : Bytes) (idx : Nat) : ∀ (k i : Nat) (v : MtLocals), lens (Xmss.mtLoopT H p x s idx k i v) = Xmss.mtLoopT H p x s idx k i v
  | 0, _, _ => rfl
  | k + 1, i, v => by simp only [Xmss.mtLoopT, bind, mtStepT, mtLoopT x s idx k]
theorem fastXmssmtSignBodyT (sk sm m : Bytes) (st : List BdsState) (l : List Bytes) (i : Nat) :
    lens (Xmss.fastXmssmtSignBodyT H p sk sm m st l i) = Xmss.fastXmssmtSignBodyT H p sk sm m st l i := by
  simp only [Xmss.fastXmssmtSignBodyT, ite, bind, opt, prfT, hashMessageT, wotsSignT, bdsStateUpdateT, mtLoopT, pure]
theorem fastXmssmtSignT (sk sm : Bytes) (l : Nat) (m : Bytes) :
    lens (Xmss.fastXmssmtSignT H p sk sm l m) = Xmss.fastXmssmtSignT H p sk sm l m := by
  simp only [Xmss.fastXmssmtSignT, ite, bind, opt, fastXmssmtSignBodyT, pure]
theorem apiKeypairFastT (P : Prims) (parse : Nat → Option Params)
    {core : (Bytes → Bytes) → Params → Bytes → Bytes → Bytes → TrG (Nat × Bytes) (Bytes × Bytes)}
    {core' : (Bytes → Bytes) → Params → Bytes → Bytes → Bytes → Tr (Bytes × Bytes)} (hc : ∀ H p a b c, lens (core H p a b c) = core' H p a b c)
    (pk sk : Bytes) (oid : Nat) (seed : Nat → Bytes) :
    lens (Xmss.apiKeypairFastT P parse core pk sk oid seed) = Xmss.apiKeypairFastT P parse core' pk sk oid seed := by
  rw [Xmss.apiKeypairFastT, Xmss.apiKeypairFastT]
  cases parse oid with
  | none => rfl
  | some p => simp only [bind, opt, hc, pure]
theorem apiSignFastT (P : Prims) (parse : Nat → Option Params)
    {core : (Bytes → Bytes) → Params → Bytes → Bytes → Nat → Bytes → TrG (Nat × Bytes) FastOut}
    {core' : (Bytes → Bytes) → Params → Bytes → Bytes → Nat → Bytes → Tr FastOut} (hc : ∀ H p a b c d, lens (core H p a b c d) = core' H p a b c d)
    (sk sm : Bytes) (l : Nat) (m : Bytes) :
    lens (Xmss.apiSignFastT P parse core sk sm l m) = Xmss.apiSignFastT P parse core' sk sm l m := by
  rw [Xmss.apiSignFastT, Xmss.apiSignFastT, bind, opt]
  congr 1
  funext oid
  cases parse oid with
  | none => rfl
  | some p => simp only [bind, opt, hc, pure]

end Lens
end Xmss
