import Verif.Proof.TraceInputsFastSign
import Verif.Proof.MtLast
/-
What signing and key generation of the fast implementation of XMSS^MT hash (xmss_core_fast.c).
-/
namespace Xmss
open Tr Sched

variable {H : Bytes → Bytes} {p : Params} {skSeed seed : Bytes}

namespace TI
open Inputs

theorem treeIn_of (g : p.Good) {idx i : Nat} (hi : i < p.d) (hidx : idx < 2 ^ p.full_height) :
    TreeIn p i (idx / B p.tree_height (i + 1)) := by
  refine ⟨hi, ?_⟩
  have hle : (i + 1) * p.tree_height ≤ p.full_height := by
    rw [← g.height, Nat.mul_comm p.tree_height]; exact Nat.mul_le_mul_right _ (by omega)
  apply Nat.div_lt_of_lt_mul
  rw [B, ← pow_add, Nat.mul_comm p.tree_height]
  rw [Nat.add_sub_cancel' hle]
  exact hidx

theorem treeIn_next (g : p.Good) {idx i : Nat} (hi : i < p.d) (hx : HasNext p.tree_height p.d idx i) :
    TreeIn p i (idx / B p.tree_height (i + 1) + 1) := by
  refine ⟨hi, ?_⟩
  rw [HasNext] at hx
  have e : p.full_height - (i + 1) * p.tree_height = p.tree_height * (p.d - i - 1) := by
    rw [← g.height, Nat.mul_comm (i + 1), ← Nat.mul_sub, Nat.sub_sub]
  rw [e, Nat.add_comm]
  exact hx

/-- Every call of the loop body for layer `i` is one of those for the trees of the key. -/
def StepHt (H : Bytes → Bytes) (p : Params) (skSeed pubSeed : Bytes) (Q : LayerPred) (idx i : Nat) (A : Nat → Nat) (c : Nat) : Prop :=
  ∀ (v : MtLocals) (cur : BdsState), v.states.length = 2 * p.d - 1 → v.sigs.length = p.d - 1 → v.swap ≤ i →
    (v.swap = i ↔ B p.tree_height i ∣ idx + 1) → v.otsAddr.a3 = UInt32.ofNat 0 → v.states[i]? = some cur →
    Q i idx A c cur v.states[p.d + i]? v.sigs[i]? →
    HT (TreeQ H p skSeed pubSeed) (mtStepT H p skSeed pubSeed idx i v) fun _ => True

theorem mtStepInner_ht (f : FastMt p) (hH : ∀ x, (H x).length = p.n) (hk1 : skSeed.length = p.n) (hs : seed.length = p.n)
    {idx i : Nat} (hi : i < p.d) (hidx : idx < 2 ^ p.full_height) (hnd : ¬ B p.tree_height (i + 1) ∣ idx + 1) {A : Nat → Nat} {c : Nat}
    (hdone : B p.tree_height i ∣ idx + 1 → ∀ k < p.tree_height, 2 ^ (k + 1) ∣ leafAt p.tree_height idx i + 1 → A k = 2 ^ k)
    {z : Nat → Option Bytes} : StepHt H p skSeed seed (GoodLayer H p skSeed seed z) idx i A c := by
  intro v cur hlen hslen hswle hswiff hots hcur ⟨⟨base, seg, ti⟩, hnext⟩
  have g := f.good
  have hth := g.th_lt
  have hins := f.insts
  have hcode := hasNext_code g (idx := idx) hi
  set h := p.tree_height with hh
  set N := (suiteOf p H).node skSeed seed i (idx / B h (i + 1)) with hN
  have ctx : TreeCtx H p skSeed seed i (idx / B h (i + 1)) N := treeCtx_suite g hH skSeed seed i _
  have cc : CallCtx H p skSeed seed i (idx / B h (i + 1)) N (TreeQ H p skSeed seed) := callCtx_suite g hH hk1 hs (treeIn_of g hi hidx)
  set a0 := setTreeAddr (setLayerAddr v.addr i) (idx / B h (i + 1)) with ha0
  have hsub : IsSub a0 i (idx / B h (i + 1)) := isSub_layer _ _ _
  have hne : i ≠ p.d + i := by omega
  rw [mtStepT, if_pos (by rw [mask_dvd]; exact hnd), mtStepInnerT]
  simp only
  rw [leafAt_code, treeAt_code, ← hh, ← ha0]
  refine HT.optE hcur ?_
  have hround : HT (TreeQ H p skSeed seed) (if i = v.swap then bdsRoundT H p cur (leafAt h idx i) skSeed seed a0 else Pure.pure cur)
      (fun s1 => ∃ q, WorkInv p N base (leafAt h (idx + 1) i) q seg s1) := by
    by_cases hB : B h i ∣ idx + 1
    · rw [if_pos (hswiff.mpr hB).symm]
      obtain ⟨s1, e1, t1, n1, l1⟩ := bdsRound_eq ctx hth hsub ti (leafAt_room hB hnd) (by rw [hins]; exact hdone hB)
      rw [hins, ← leafAt_succ_dvd hB hnd] at t1
      refine HT.mono (HT.withVal (bdsRound_ht cc hsub ti (leafAt_room hB hnd))) fun s hs => ?_
      have hs := hs.2
      rw [Lens.bdsRoundT, bdsRoundT_val, e1] at hs
      cases hs
      exact ⟨_, t1.work⟩
    · rw [if_neg (fun h => hB (hswiff.mp h.symm)), leafAt_succ_not hB]
      exact HT.pure ⟨_, ti.work⟩
  refine HT.bind hround fun s1 ⟨q, w1⟩ => HT.bind (bdsTreehashUpdate_ht ctx cc hth hsub v.updates w1) fun r _ => ?_
  refine HT.ite (fun hc => ?_) fun _ => HT.pureAny
  have hx := hcode.mp hc.1
  have hid : i + 1 < p.d := by
    by_contra hc
    have h1 := hx
    have hz : p.d - i - 1 = 0 := by clear hcode hx h1; omega
    rw [HasNext, hz, Nat.mul_zero, pow_zero] at h1
    exact absurd h1 (Nat.not_lt.mpr (Nat.le_add_right _ _))
  obtain ⟨nx, hnx, hnl, hcle, bi, hz, hsig⟩ := hnext hid
  rw [List.getElem?_set_ne hne]
  refine HT.optE hnx (HT.ite (fun _ => ?_) fun _ => HT.pureAny)
  refine HT.bind (bdsStateUpdate_ht (treeCtx_suite g hH skSeed seed i (idx / B h (i + 1) + 1))
    (callCtx_suite g hH hk1 hs (treeIn_next g hi hx)) (isSub_tree hsub _) (by rw [hnl]; exact bi) (by rw [hnl]; exact hcle)) fun _ _ => HT.pureAny

theorem mtStepSwap_ht (f : FastMt p) (hH : ∀ x, (H x).length = p.n) (hk1 : skSeed.length = p.n) (hs : seed.length = p.n)
    {idx i : Nat} (hlast : idx + 1 < 2 ^ p.full_height) (hd : B p.tree_height (i + 1) ∣ idx + 1) {A : Nat → Nat} {z : Nat → Option Bytes} :
    StepHt H p skSeed seed (GoodLayer H p skSeed seed z) idx i A (2 ^ p.tree_height) := by
  intro v cur hlen hslen hswle hswiff hots hcur ⟨⟨base, seg, ti⟩, hnext⟩
  have g := f.good
  have hth := g.th_lt
  have hid : i + 1 < p.d := by
    by_contra hc
    have h1 : B p.tree_height p.d ∣ idx + 1 := (B_dvd (by omega)).trans hd
    have := Nat.le_of_dvd (by omega) h1
    rw [B, g.height] at this
    omega
  obtain ⟨nx, hnx, hnl, hcle, bi, _, hsig⟩ := hnext hid
  set h := p.tree_height with hh
  obtain ⟨hroot, ti'⟩ := bi.takeOver hth
  have hcl := (List.getElem?_eq_some_iff.mp hcur).1
  have hne : i ≠ p.d + i := by omega
  have htree : (idx + 1) / B h (i + 1) = idx / B h (i + 1) + 1 := Nat.succ_div_of_dvd hd
  set N' := (suiteOf p H).node skSeed seed i (idx / B h (i + 1) + 1) with hN'
  have hrl : (N' h 0).length = p.n := node_length g hH _ _ _ _ _ _
  set oa := setOtsAddr (setTreeAddr (setLayerAddr v.otsAddr (i + 1)) ((idx + 1) >>> ((i + 2) * h)))
    (((idx >>> ((i + 1) * h)) + 1) &&& ((1 <<< h) - 1)) with hoa
  have hots' : IsOts oa (i + 1) ((idx + 1) / B h (i + 2)) (leafAt h (idx + 1) (i + 1)) := by
    have e1 : (idx + 1) >>> ((i + 2) * h) = (idx + 1) / B h (i + 2) := by
      rw [Nat.shiftRight_eq_div_pow, mul_comm]; rfl
    have e2 : ((idx >>> ((i + 1) * h)) + 1) &&& ((1 <<< h) - 1) = leafAt h (idx + 1) (i + 1) := by
      rw [Nat.one_shiftLeft, Nat.and_two_pow_sub_one_eq_mod, Nat.shiftRight_eq_div_pow, mul_comm (i + 1) h]
      show (idx / B h (i + 1) + 1) % 2 ^ h = _
      rw [← htree]
      rfl
    rw [hoa, e1, e2]
    exact ⟨rfl, rfl, rfl, hots, rfl⟩
  have hin := treeIn_of g (idx := idx + 1) hid hlast
  rw [mtStepT, if_neg (by rw [mask_dvd]; exact fun hc => hc hd), if_pos (by omega), mtStepSwapT, swapStates, hcur, hnx]
  simp only [Option.bind_eq_bind, Option.bind_some]
  refine HT.optE rfl ?_
  rw [← hh, ← hoa]
  have hget : ((v.states.set i nx).set (p.d + i) cur)[i]? = some nx := by
    rw [List.getElem?_set_ne hne.symm, List.getElem?_set_self hcl]
  refine HT.optE hget (HT.optE hroot ?_)
  refine HT.bind (wotsSign_ht g hH hk1 hs ⟨hin.l, hin.t, leaf_lt _ _ _⟩ hrl hots') fun _ _ => ?_
  exact HT.optBind fun _ _ => HT.optBind fun _ _ => HT.pureAny

theorem mtLoop_ht {Q : LayerPred} {idx : Nat} (hu128 : p.insts / 2 < 128) (hd31 : p.d < 2 ^ 31) :
    ∀ (k i : Nat) (A : Nat → Nat → Nat) (c : Nat → Nat) (v : MtLocals), i + k ≤ p.d → LoopInv p Q idx i A c v →
      (∀ j, i ≤ j → j < i + k → StepOk H p skSeed seed Q idx j (A j) (c j)) →
      (∀ j, i ≤ j → j < i + k → StepHt H p skSeed seed Q idx j (A j) (c j)) →
      HT (TreeQ H p skSeed seed) (mtLoopT H p skSeed seed idx k i v) fun _ => True := by
  intro k
  induction k with
  | zero => intro i A c v _ _ _ _; exact HT.pureAny
  | succ k ih =>
    intro i A c v hk li hs ht
    obtain ⟨v1, A1, c1, upd, e1, li1, hA, _⟩ := mtLoop_eq hu128 hd31 1 i A c v (by omega) li (fun j h1 h2 => hs j h1 (by omega))
    obtain ⟨cur, hcur, hq⟩ := li.layer i (by omega)
    rw [if_neg (by omega)] at hq
    rw [mtLoopT]
    refine HT.bindE (ht i (Nat.le_refl _) (by omega) v cur li.states_len li.sigs_len li.swap_le li.swap_iff li.ots hcur hq) (a := v1) ?_ ?_
    · rw [Lens.mtStepT, mtStepT_val]
      rw [mtLoop] at e1
      obtain ⟨w, hw, e1⟩ := Option.bind_eq_some_iff.mp e1
      rw [mtLoop] at e1
      cases e1
      exact hw
    · refine ih (i + 1) A1 c1 v1 (by omega) li1 (fun j h1 h2 => ?_) (fun j h1 h2 => ?_)
      · obtain ⟨x1, x2⟩ := hA j (Or.inr h1)
        rw [x1, x2]
        exact hs j (by omega) (by omega)
      · obtain ⟨x1, x2⟩ := hA j (Or.inr h1)
        rw [x1, x2]
        exact ht j (by omega) (by omega)

/-- The traversal of one signature, xmss_core_fast.c:929-979, as in `fastXmssmtSignBodyT`. -/
theorem mtTraverse_ht (f : FastMt p) (hH : ∀ x, (H x).length = p.n) (hk1 : skSeed.length = p.n) (hs : seed.length = p.n)
    {z : Nat → Option Bytes} {idx : Nat} {states : List BdsState} {sigs : List Bytes}
    (m : MtInv H p skSeed seed z idx states sigs) (hlast : idx + 1 < 2 ^ p.full_height)
    (htop : idx + 1 < B p.tree_height (p.insts / 2 + 2)) (hz : ∀ i ≤ p.insts / 2, z i = none) {oa : Addr} (ho : oa.a3 = UInt32.ofNat 0) :
    HT (TreeQ H p skSeed seed) (do
      let states ← (if (1 + idx >>> p.tree_height) * (1 <<< p.tree_height) + (idx &&& ((1 <<< p.tree_height) - 1)) < 2 ^ p.full_height then do
          let next ← Tr.opt states[p.d]?
          let next ← bdsStateUpdateT H p next skSeed seed (setTreeAddr Addr.zero ((idx >>> p.tree_height) + 1))
          Pure.pure (states.set p.d next)
        else Pure.pure states : TrG (Nat × Bytes) (List BdsState))
      mtLoopT H p skSeed seed idx p.d 0
        { states := states, sigs := sigs, updates := p.insts >>> 1, swap := 0, addr := setTreeAddr Addr.zero ((idx >>> p.tree_height) + 1),
          otsAddr := oa }) fun _ => True := by
  obtain ⟨A, c, m⟩ := m
  have g := f.good
  have hd2 := f.d
  have hins := f.insts
  have hth := g.th_lt
  have hBd : B p.tree_height p.d = 2 ^ p.full_height := by rw [B, g.height]
  obtain ⟨states', c', e1, hl', hin, hlay, ht1, ht2, ht3⟩ := nextZero_eq f hH rfl m
  have t1 : idx >>> p.tree_height = idx / B p.tree_height (0 + 1) := by
    have := treeAt_code (p := p) idx 0
    rwa [Nat.zero_add, Nat.mul_one] at this
  have t2 : idx &&& ((1 <<< p.tree_height) - 1) = leafAt p.tree_height idx 0 := by
    have := leafAt_code (p := p) idx 0
    rwa [Nat.mul_zero, Nat.shiftRight_zero] at this
  have hcode := hasNext_code g (idx := idx) (i := 0) (by omega)
  rw [Nat.mul_zero, Nat.sub_zero] at hcode
  have h0 : HT (TreeQ H p skSeed seed)
      (if (1 + idx >>> p.tree_height) * (1 <<< p.tree_height) + (idx &&& ((1 <<< p.tree_height) - 1)) < 2 ^ p.full_height then do
          let next ← Tr.opt states[p.d]?
          let next ← bdsStateUpdateT H p next skSeed seed (setTreeAddr Addr.zero ((idx >>> p.tree_height) + 1))
          Pure.pure (states.set p.d next)
        else Pure.pure states : TrG (Nat × Bytes) (List BdsState)) fun s => s = states' := by
    split
    · rename_i hc
      rw [if_pos hc] at e1
      rw [t1, t2] at hc
      have hx := hcode.mp hc
      obtain ⟨cur, hcur, hC, hnext⟩ := m.layer 0 (by omega)
      obtain ⟨nx, hnx, hnl, hcle, bi, _, hsig⟩ := hnext (by omega)
      rw [Nat.add_zero] at hnx
      rw [hnx] at e1 ⊢
      refine HT.optE rfl ?_
      simp only [Option.bind_eq_bind, Option.bind_some] at e1
      obtain ⟨nx', e2, e1⟩ := Option.bind_eq_some_iff.mp e1
      cases e1
      refine HT.bindE (bdsStateUpdate_ht (treeCtx_suite g hH skSeed seed 0 (idx / B p.tree_height (0 + 1) + 1))
        (callCtx_suite g hH hk1 hs (treeIn_next g (by omega) hx)) ?_ (by rw [hnl]; exact bi) (by rw [hnl]; exact hcle))
        (by rw [Lens.bdsStateUpdateT, bdsStateUpdateT_val]; exact e2) (HT.pure rfl)
      rw [t1]
      exact ⟨rfl, rfl, rfl⟩
    · rename_i hc
      rw [if_neg hc] at e1
      cases e1
      exact HT.pure rfl
  refine HT.bind h0 fun s hs' => ?_
  rw [hs']
  have li := loopStart (addr := setTreeAddr Addr.zero ((idx >>> p.tree_height) + 1)) ho hl' m.sigs_len hlay
  have hu : p.insts / 2 = p.tree_height / 2 := by rw [hins]
  have hju : ∀ j, B p.tree_height (j + 1) ∣ idx + 1 → j ≤ p.insts / 2 := by
    intro j hB
    by_contra hc
    have h1 : B p.tree_height (p.insts / 2 + 2) ∣ idx + 1 := (B_dvd (by omega)).trans hB
    have := Nat.le_of_dvd (by omega) h1
    omega
  have hdone : ∀ j, j < p.d → B p.tree_height j ∣ idx + 1 → ∀ k < p.tree_height, 2 ^ (k + 1) ∣ leafAt p.tree_height idx j + 1 → A j k = 2 ^ k := by
    intro j hj hBj k hk hdv
    by_cases hj0 : j = 0
    · subst hj0
      exact done_at_deadline (m.plan.nested 0 hj) m.plan.inTime0 hk hdv
    · exact m.plan.done f.th hu (by omega) hj hBj k hk
  refine mtLoop_ht (by omega) f.d_lt p.d 0 A c' _ (by omega) li ?_ ?_
  · intro j _ hj
    by_cases hB : B p.tree_height (j + 1) ∣ idx + 1
    · rw [m.plan.ready hin (by omega) (by rw [hBd]; exact hlast) (hju j hB) hB]
      exact mtStepSwap_eq f hH hlast hB (hz j (hju j hB))
    · exact mtStepInner_eq f hH (by omega) hB (hdone j (by omega))
  · intro j _ hj
    by_cases hB : B p.tree_height (j + 1) ∣ idx + 1
    · rw [m.plan.ready hin (by omega) (by rw [hBd]; exact hlast) (hju j hB) hB]
      exact mtStepSwap_ht f hH hk1 hs hlast hB
    · exact mtStepInner_ht f hH hk1 hs (by omega) (by omega) hB (hdone j (by omega))

/-- The traversal of one signature as it stands in `fastXmssmtSignBodyT`. -/
def TraverseHt (H : Bytes → Bytes) (p : Params) (skSeed seed : Bytes) (idx : Nat) (states : List BdsState) (sigs : List Bytes) : Prop :=
  ∀ oa : Addr, oa.a3 = UInt32.ofNat 0 → HT (TreeQ H p skSeed seed) (do
      let states ← (if (1 + idx >>> p.tree_height) * (1 <<< p.tree_height) + (idx &&& ((1 <<< p.tree_height) - 1)) < 2 ^ p.full_height then do
          let next ← Tr.opt states[p.d]?
          let next ← bdsStateUpdateT H p next skSeed seed (setTreeAddr Addr.zero ((idx >>> p.tree_height) + 1))
          Pure.pure (states.set p.d next)
        else Pure.pure states : TrG (Nat × Bytes) (List BdsState))
      mtLoopT H p skSeed seed idx p.d 0
        { states := states, sigs := sigs, updates := p.insts >>> 1, swap := 0, addr := setTreeAddr Addr.zero ((idx >>> p.tree_height) + 1),
          otsAddr := oa }) fun _ => True

theorem HT_assoc {α β γ : Type} {Q : Nat × Bytes → Prop} {t : TrG (Nat × Bytes) α} {u : α → TrG (Nat × Bytes) β} {w : β → TrG (Nat × Bytes) γ}
    (h : HT Q (t >>= u) fun _ => True) (hw : ∀ b, HT Q (w b) fun _ => True) : HT Q (t >>= fun a => u a >>= w) fun _ => True := by
  intro c l e
  cases t with
  | none => cases e
  | some r =>
    obtain ⟨a, l1⟩ := r
    change mk a l1 >>= _ = _ at e
    rw [bind_mk] at e
    cases hu : u a with
    | none =>
      rw [hu] at e
      cases e
    | some r2 =>
      obtain ⟨b, l2⟩ := r2
      rw [hu] at e
      change tell l1 (mk b l2 >>= w) = _ at e
      rw [bind_mk] at e
      cases hw' : w b with
      | none => rw [hw'] at e; cases e
      | some r3 =>
        obtain ⟨c', l3⟩ := r3
        rw [hw'] at e
        cases e
        refine ⟨trivial, fun x hx => ?_⟩
        have h1 := (h b (l1 ++ l2) (by show mk a l1 >>= u = _; rw [bind_mk, hu]; rfl)).2
        have h2 := (hw b _ l3 hw').2
        simp only [List.mem_append] at hx h1
        rcases hx with hx | hx | hx
        · exact h1 x (Or.inl hx)
        · exact h1 x (Or.inr hx)
        · exact h2 x hx

theorem fastXmssmtSignBody_ht (g : p.Good) (hH : ∀ x, (H x).length = p.n)
    {sk sm M skPrf root : Bytes} {idx : Nat} {states : List BdsState} {sigs : List Bytes}
    (h1 : rd sk p.index_bytes p.n = some skSeed) (h2 : rd sk (p.index_bytes + p.n) p.n = some skPrf)
    (h3 : rd sk (p.index_bytes + 2 * p.n) p.n = some root) (h4 : rd sk (p.index_bytes + 3 * p.n) p.n = some seed)
    (hidx : idx < 2 ^ p.full_height) (hst : TraverseHt H p skSeed seed idx states sigs) :
    HT (SignQ H p skSeed seed skPrf root idx M) (fastXmssmtSignBodyT H p sk sm M states sigs idx) (fun _ => True) := by
  have t1 := rd_length h1
  have t2 := rd_length h2
  have t3 := rd_length h3
  have t4 := rd_length h4
  rw [fastXmssmtSignBodyT]
  refine HT.optE h1 (HT.optE h2 (HT.optE h4 ?_))
  refine HT.optBind fun sk1 hsk1 => ?_
  have lu : (ullToBytes p.index_bytes (idx + 1)).length = p.index_bytes := ullToBytes_length _ _
  refine HT.bind (R := fun r => r = (suiteOf p H).PRF skPrf (Rfc.toByte idx 32)) (HT.mono (HT.core ⟨?_, ?_⟩) ?_) fun r hr => ?_
  · simp only [prfInput, List.length_append, ullToBytes_length, t2]
  · have e : prfInput p (ullToBytes 32 idx) skPrf = Rfc.toByte 3 p.padding_len ++ skPrf ++ Rfc.toByte idx 32 := by
      simp only [prfInput, ullToBytes_eq, padPrf]
    rw [e]
    exact SignCall.randomizer
  · intro a ha
    rw [ha, ← ullToBytes_eq, ← prf_eq]
    rfl
  · have hrl : r.length = p.n := by rw [hr]; exact hH _
    refine HT.optBind fun sm1 hsm1 => ?_
    rw [rd_wr_ne hsk1 (by omega), h3]
    refine HT.optE rfl (HT.ite (fun _ => HT.none) fun hle => ?_)
    refine HT.bind (hashMessage_ht hH hrl t3 (M := M) ?_ ?_) fun hm hml => ?_
    · rw [show p.sig_bytes - p.padding_len - 3 * p.n + p.padding_len + 3 * p.n = p.sig_bytes by omega]
      exact rd_wr_same hsm1
    · intro x hx
      refine ⟨rfl, ?_⟩
      rw [hx, hr]
      exact SignCall.message
    · refine HT.optBind fun sm2 _ => HT.optBind fun sm3 _ => ?_
      have e1 : idx >>> p.tree_height = idx / B p.tree_height (0 + 1) := by
        have := treeAt_code (p := p) idx 0
        rwa [Nat.zero_add, Nat.mul_one] at this
      have e2 : idx &&& ((1 <<< p.tree_height) - 1) = leafAt p.tree_height idx 0 := by
        have := leafAt_code (p := p) idx 0
        rwa [Nat.mul_zero, Nat.shiftRight_zero] at this
      have hots : IsOts (setOtsAddr (setTreeAddr (setLayerAddr (setType Addr.zero typeOts) 0) (idx >>> p.tree_height))
          (idx &&& ((1 <<< p.tree_height) - 1))) 0 (idx / B p.tree_height (0 + 1)) (leafAt p.tree_height idx 0) := by
        rw [e1, e2]
        exact ⟨rfl, rfl, rfl, rfl, rfl⟩
      have hin := treeIn_of g (i := 0) g.d_pos hidx
      have tq : ∀ c, TreeQ H p skSeed seed c → SignQ H p skSeed seed skPrf root idx M c := fun c hc => ⟨hc.1, SignCall.tree hc.2⟩
      refine HT.bind (HT.weaken (wotsSign_ht g hH t1 t4 ⟨hin.l, hin.t, leaf_lt _ _ _⟩ hml hots) tq) fun w hwv => ?_
      have w2 := (wotsSign_eq (H := H) g skSeed seed hml _ hots).2
      refine HT.optBind fun _ _ => HT.optBind fun _ _ => HT.optBind fun _ _ => HT.optBind fun c _ => ?_
      rw [hwv]
      exact HT_assoc (HT.weaken (hst _ w2.h3) tq) fun _ => HT.optBind fun _ _ => HT.optBind fun _ _ => HT.pureAny

theorem mtLoop_last_ht {Q : Nat × Bytes → Prop} (g : p.Good) : ∀ (k i : Nat) (v : MtLocals), i + k ≤ p.d →
    HT Q (mtLoopT H p skSeed seed (2 ^ p.full_height - 1) k i v) fun _ => True := by
  have hpos : 0 < 2 ^ p.full_height := Nat.two_pow_pos _
  intro k
  induction k with
  | zero => intro i v _; exact HT.pureAny
  | succ k ih =>
    intro i v hk
    have hB : B p.tree_height (i + 1) ∣ 2 ^ p.full_height - 1 + 1 := by
      rw [show 2 ^ p.full_height - 1 + 1 = 2 ^ p.full_height by omega, ← g.height]
      exact B_dvd (by omega)
    rw [mtLoopT, mtStepT, if_neg (not_not.mpr ((mask_dvd _ _ _).mpr hB)), if_neg (by omega)]
    exact HT.bind HT.pureAny fun v _ => ih (i + 1) v (by omega)

theorem traverse_last (g : p.Good) (states : List BdsState) (sigs : List Bytes) :
    TraverseHt H p skSeed seed (2 ^ p.full_height - 1) states sigs := by
  intro oa _
  have hpos : 0 < 2 ^ p.full_height := Nat.two_pow_pos _
  have e : ¬ ((1 + (2 ^ p.full_height - 1) >>> p.tree_height) * (1 <<< p.tree_height) +
      ((2 ^ p.full_height - 1) &&& ((1 <<< p.tree_height) - 1)) < 2 ^ p.full_height) := by
    rw [Nat.shiftRight_eq_div_pow, Nat.one_shiftLeft, Nat.and_two_pow_sub_one_eq_mod]
    have h1 := Nat.div_add_mod (2 ^ p.full_height - 1) (2 ^ p.tree_height)
    rw [Nat.add_mul, one_mul]
    rw [mul_comm] at h1
    have : 0 < 2 ^ p.tree_height := Nat.two_pow_pos _
    omega
  rw [if_neg e]
  exact HT.bind HT.pureAny fun s _ => mtLoop_last_ht g p.d 0 _ (by omega)

theorem fastXmssmtSign_ht (f : FastMt p) (hH : ∀ x, (H x).length = p.n) {k : Key} (hk : k.Valid p) {idx : Nat}
    (hidx : idx < 256 ^ p.index_bytes) {states : List BdsState} {sigs : List Bytes} (sh : ExtShape p states sigs)
    (hr : idx < 2 ^ p.full_height - 1 → idx + 1 < B p.tree_height (p.insts / 2 + 2) ∧
      MtInv H p k.skSeed k.pubSeed (fun _ => none) idx states sigs) {sm M : Bytes} {l0 : Nat} :
    HT (fun c => SignQ H p (usedKey p k idx).skSeed (usedKey p k idx).pubSeed (usedKey p k idx).skPrf (usedKey p k idx).root idx M c ∧
        idx < 2 ^ p.full_height)
      (fastXmssmtSignT H p (k.fast p idx states sigs) sm l0 M) (fun _ => True) := by
  have g := f.good
  have hth := g.th_lt
  have hds := deserialize_eq sh (skHead (Rfc.toByte idx p.index_bytes) k.skSeed k.skPrf k.root k.pubSeed) []
    (skHead_length (toByte_length _ _) hk.skSeed hk.skPrf hk.root hk.pubSeed)
  rw [List.append_nil] at hds
  obtain ⟨r1, -⟩ := skPhase (p := p) (extBytes states sigs) (toByte_length idx p.index_bytes) hk.skSeed hk.skPrf hk.root hk.pubSeed 0
  rw [Key.fast, fastXmssmtSignT, if_neg (by omega)]
  refine HT.optE hds (HT.optE r1 ?_)
  rw [bytesToUll_eq (by rw [toByte_length]; exact g.idx_le), toNat_toByte, Nat.mod_eq_of_lt hidx]
  refine HT.optE rfl (HT.ite (fun _ => HT.none) fun _ => ?_)
  have hpos := Nat.two_pow_pos p.full_height
  refine HT.ite (fun hlast => ?_) fun hlast => ?_
  · rw [wiped_head hk (by rw [extBytes_length sh, f.sk, fastSkBytes]; omega)]
    refine HT.optE rfl (HT.ite (fun _ => HT.pureAny) fun hl => ?_)
    have hi : idx = 2 ^ p.full_height - 1 := by omega
    rw [usedKey, if_neg (by omega)]
    obtain ⟨q1, q2, q3, q4⟩ := used_reads (keyZero_valid p) (ib := List.replicate p.index_bytes 0xFF) (by simp)
      (List.replicate (extBytes states sigs).length 0)
    refine HT.weaken (fastXmssmtSignBody_ht g hH q1 q2 q3 q4 (by omega) ?_) fun c hc => ⟨hc, by omega⟩
    rw [hi]
    exact traverse_last g _ _
  · have hi : idx < 2 ^ p.full_height := by omega
    rw [usedKey, if_pos (by omega)]
    obtain ⟨q1, q2, q3, q4⟩ := used_reads hk (toByte_length idx p.index_bytes) (extBytes states sigs)
    obtain ⟨hb, mi⟩ := hr (by omega)
    refine HT.weaken (fastXmssmtSignBody_ht g hH q1 q2 q3 q4 hi ?_) fun c hc => ⟨hc, hi⟩
    intro oa ho
    exact mtTraverse_ht f hH hk.skSeed hk.pubSeed (mi.with_leaves 0) (by omega) hb (fun _ _ => rfl) ho

theorem fastKeypairLoop_ht (g : p.Good) (hH : ∀ x, (H x).length = p.n) (h3 : 3 ≤ p.tree_height) (hK : p.bds_k ≤ p.tree_height)
    (hk1 : skSeed.length = p.n) (hs : seed.length = p.n)
    {st0 : List BdsState} {sg0 : List Bytes} (sh : ∀ s ∈ st0, Shape p s ∧ s.stackoffset = 0) :
    ∀ (k i : Nat) (states : List BdsState) (sigs : List Bytes) (addr : Addr), i + k < p.d → i + k < st0.length → i + k ≤ sg0.length →
      GenInv H p skSeed seed st0 sg0 i states sigs addr →
      HT (TreeQ H p skSeed seed) (fastKeypairLoopT H p skSeed seed k i states sigs addr) fun _ => True := by
  intro k
  induction k with
  | zero => intro i states sigs addr _ _ _ gi; exact HT.pureAny
  | succ k ih =>
    intro i states sigs addr hkd hk hk' gi
    have hi : i < st0.length := by omega
    obtain ⟨hsh, hso⟩ := sh st0[i] (List.getElem_mem hi)
    obtain ⟨s', e1, ti, _, _⟩ := treehashInit_eq (treeCtx_suite g hH skSeed seed i 0) g.th_lt h3 hK (addr := addr)
      ⟨gi.addr.h0, gi.addr.h1, gi.addr.h2⟩ hsh hso
    have ha : IsOts (setLayerAddr addr (i + 1)) (i + 1) 0 0 := ⟨rfl, gi.addr.h1, gi.addr.h2, gi.addr.h3, gi.addr.h4⟩
    have hcur : states[i]? = some st0[i] := by rw [gi.rest i (Nat.le_refl _), List.getElem?_eq_getElem hi]
    obtain ⟨st1, sg1, ad1, e2, gi1⟩ := fastKeypairLoop_eq g hH h3 hK sh 1 i states sigs addr (by omega) (by omega) gi
    rw [fastKeypairLoop, hcur] at e2
    simp only [Option.bind_eq_bind, Option.bind_some, e1] at e2
    obtain ⟨sg2, e3, e2⟩ := Option.bind_eq_some_iff.mp e2
    rw [fastKeypairLoop] at e2
    cases e2
    rw [fastKeypairLoopT]
    refine HT.optE hcur (HT.bindE (treehashInit_ht (treeCtx_suite g hH skSeed seed i 0)
      (callCtx_suite g hH hk1 hs ⟨by omega, Nat.two_pow_pos _⟩) g.th_lt h3 hK ⟨gi.addr.h0, gi.addr.h1, gi.addr.h2⟩ hsh)
      (by rw [Lens.treehashInitT, treehashInitT_val]; exact e1) ?_)
    refine HT.bind (wotsSign_ht g hH hk1 hs ⟨by omega, Nat.two_pow_pos _, Nat.two_pow_pos _⟩ (node_length g hH _ _ _ _ _ _) ha) fun w hw => ?_
    rw [hw]
    refine HT.optE e3 ?_
    exact ih (i + 1) _ _ _ (by omega) (by omega) (by omega) gi1

theorem fastXmssmtKeypair_ht (f : FastMt p) (hH : ∀ x, (H x).length = p.n) {pk sk rnd : Bytes} (hsk : sk.length = p.sk_bytes) :
    HT (TreeQ H p (rnd.take p.n) ((rnd.drop (2 * p.n)).take p.n)) (fastXmssmtKeypairT H p pk sk rnd) (fun _ => True) := by
  have g := f.good
  have hd := f.d
  have hth4 := f.th
  have hK0 := f.k
  obtain ⟨st0, sg0, e, sh, _, _⟩ := deserialize_any (p := p) sk (by rw [hsk, f.sk])
  have hst := sh.states_len
  have hsg := sh.sigs_len
  set st1 := st0.map (fun s => { s with stackoffset := 0, nextLeaf := 0 }) with hst1
  have hl1 : st1.length = 2 * p.d - 1 := by rw [hst1, List.length_map]; exact hst
  have sh1 : ∀ s ∈ st1, Shape p s ∧ s.stackoffset = 0 := by
    intro s hs
    obtain ⟨t, ht, rfl⟩ := List.mem_map.mp hs
    exact ⟨(Shape.fresh (N := fun _ _ => []) (sh.states_mem t ht)).shape, rfl⟩
  rw [fastXmssmtKeypairT]
  refine HT.ite (fun _ => HT.none) fun hth => HT.optE e ?_
  refine HT.optBind fun sk0 h0 => HT.optBind fun s2 h2 => HT.optBind fun sk2 h3 => HT.optBind fun s3 h4 => HT.optBind fun sk3 h5 => ?_
  refine HT.optBind fun pub h6 => HT.optBind fun pk1 h7 => HT.optBind fun sks h8 => HT.optBind fun pub' h9 => ?_
  obtain ⟨e1, e2⟩ := seeds_of_key h2 h3 h4 h5 h8 h6
  have l6 := rd_length h6
  have e9 := rd_wr_same h7
  rw [l6, h9] at e9
  obtain rfl : pub' = pub := Option.some.inj e9
  rw [← e1, ← e2]
  have l8 := rd_length h8
  have gi0 : GenInv H p sks pub' st1 sg0 0 st1 sg0 (setLayerAddr Addr.zero 0) :=
    ⟨rfl, rfl, fun _ h => by omega, fun _ _ => rfl, fun _ h => by omega, ⟨rfl, rfl, rfl, rfl, rfl⟩⟩
  obtain ⟨sta, sga, ad, e3, gi⟩ := fastKeypairLoop_eq (H := H) g hH (by omega) (by omega) sh1 (p.d - 1) 0 st1 sg0
    (setLayerAddr Addr.zero 0) (by omega) (by omega) gi0
  rw [Nat.zero_add] at gi
  refine HT.bindE (fastKeypairLoop_ht g hH (by omega) (by omega) l8 l6 sh1 (p.d - 1) 0 st1 sg0 _ (by omega) (by omega) (by omega) gi0)
    (by rw [Lens.fastKeypairLoopT, fastKeypairLoopT_val]; exact e3) ?_
  have hi : p.d - 1 < st1.length := by omega
  obtain ⟨hsh, hso⟩ := sh1 st1[p.d - 1] (List.getElem_mem hi)
  have hcur : sta[p.d - 1]? = some st1[p.d - 1] := by rw [gi.rest _ (Nat.le_refl _), List.getElem?_eq_getElem hi]
  refine HT.optE hcur (HT.bind (treehashInit_ht (treeCtx_suite g hH sks pub' (p.d - 1) 0)
    (callCtx_suite g hH l8 l6 ⟨by omega, Nat.two_pow_pos _⟩) (by omega) (by omega) (by omega) ⟨gi.addr.h0, gi.addr.h1, gi.addr.h2⟩ hsh) fun _ _ => ?_)
  exact HT.optBind fun _ _ => HT.optBind fun _ _ => HT.optBind fun _ _ => HT.optBind fun _ _ => HT.pureAny

end TI
end Xmss
