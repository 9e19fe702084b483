import Verif.Proof.MtLoop
/-
The two branches of the loop body for a layer in good order.
-/
namespace Xmss
open Sched

variable {H : Bytes → Bytes} {p : Params}

theorem totalLeaves_set {l : List BdsState} {i : Nat} {x y : BdsState} (h : l[i]? = some x) :
    totalLeaves (l.set i y) + x.leaves = totalLeaves l + y.leaves := by
  unfold totalLeaves
  induction l generalizing i with
  | nil => cases h
  | cons a l ih =>
    cases i with
    | zero =>
      rw [List.getElem?_cons_zero, Option.some.injEq] at h
      subst h
      simp only [List.set_cons_zero, List.map_cons, List.sum_cons]
      omega
    | succ i =>
      rw [List.getElem?_cons_succ] at h
      have := ih h
      simp only [List.set_cons_succ, List.map_cons, List.sum_cons]
      omega

/-- State of a layer: `C` describes the current tree, the next tree is built as far as `c` says, `Sg` describes the signature of
the root by the layer above.  `z i` is, if wanted, the node that the last slot of the authentication path of the next tree
holds until that tree is complete. -/
def LayerQ (H : Bytes → Bytes) (p : Params) (skSeed pubSeed : Bytes) (z : Nat → Option Bytes)
    (C : Nat → Nat → (Nat → Nat) → BdsState → Prop) (Sg : Nat → Nat → Option Bytes → Prop) : LayerPred := fun i t A c cur next sig =>
  C i t A cur ∧
  (i + 1 < p.d → ∃ nx, next = some nx ∧ nx.nextLeaf = c ∧ c ≤ 2 ^ p.tree_height ∧
    BuildInv p ((suiteOf p H).node skSeed pubSeed i (t / B p.tree_height (i + 1) + 1)) c nx ∧
    (∀ x, z i = some x → c < 2 ^ p.tree_height → nx.auth[p.tree_height - 1]? = some x) ∧
    Sg i t sig)

/-- The current tree with its instances is in good order. -/
def GoodC (H : Bytes → Bytes) (p : Params) (skSeed pubSeed : Bytes) (i t : Nat) (A : Nat → Nat) (cur : BdsState) : Prop :=
  ∃ base seg, TreeInv p ((suiteOf p H).node skSeed pubSeed i (t / B p.tree_height (i + 1))) base (leafAt p.tree_height t i) A
    seg cur

/-- The signature of the root is that of RFC 8391. -/
def GoodSig (H : Bytes → Bytes) (p : Params) (skSeed pubSeed : Bytes) (i t : Nat) (sig : Option Bytes) : Prop :=
  sig = some ((suiteOf p H).wotsSig skSeed pubSeed
      ((suiteOf p H).node skSeed pubSeed i (t / B p.tree_height (i + 1)) p.tree_height 0) (i + 1)
      (t / B p.tree_height (i + 2)) (leafAt p.tree_height t (i + 1))).flatten

/-- Layer `i` is in good order at time `t`: the current tree with its instances, the next tree as far as it is built, and
the signature of the root by the layer above. -/
def GoodLayer (H : Bytes → Bytes) (p : Params) (skSeed pubSeed : Bytes) (z : Nat → Option Bytes) : LayerPred :=
  LayerQ H p skSeed pubSeed z (GoodC H p skSeed pubSeed) (GoodSig H p skSeed pubSeed)

theorem leafAt_code (idx i : Nat) : (idx >>> (p.tree_height * i)) &&& ((1 <<< p.tree_height) - 1) = leafAt p.tree_height idx i := by
  rw [Nat.one_shiftLeft, Nat.and_two_pow_sub_one_eq_mod, Nat.shiftRight_eq_div_pow]
  rfl

theorem treeAt_code (idx i : Nat) : idx >>> (p.tree_height * (i + 1)) = idx / B p.tree_height (i + 1) := by
  rw [Nat.shiftRight_eq_div_pow]; rfl

theorem hasNext_code (g : p.Good) {idx i : Nat} (hi : i < p.d) :
    (1 + idx / B p.tree_height (i + 1)) * (1 <<< p.tree_height) + leafAt p.tree_height idx i <
      2 ^ (p.full_height - p.tree_height * i) ↔ HasNext p.tree_height p.d idx i := by
  have hl := leaf_lt p.tree_height idx i
  rw [Nat.one_shiftLeft]
  have e : p.full_height - p.tree_height * i = p.tree_height * (p.d - i - 1) + p.tree_height := by
    rw [← g.height]
    obtain ⟨k, hk⟩ : ∃ k, p.d = i + 1 + k := ⟨p.d - i - 1, by omega⟩
    rw [hk, show i + 1 + k - i - 1 = k by omega, Nat.mul_add, Nat.mul_add]
    omega
  rw [e, pow_add, HasNext]
  generalize 2 ^ p.tree_height = b at *
  generalize 2 ^ (p.tree_height * (p.d - i - 1)) = X
  generalize 1 + idx / B p.tree_height (i + 1) = T
  constructor
  · intro h
    by_contra hc
    have : X * b ≤ T * b := Nat.mul_le_mul_right _ (by omega)
    omega
  · intro h
    have : (T + 1) * b ≤ X * b := Nat.mul_le_mul_right _ h
    rw [Nat.add_mul, one_mul] at this
    omega

theorem isSub_layer (a : Addr) (i t : Nat) : IsSub (setTreeAddr (setLayerAddr a i) t) i t := ⟨rfl, rfl, rfl⟩

theorem isSub_tree {a : Addr} {i t : Nat} (h : IsSub a i t) (t' : Nat) : IsSub (setTreeAddr a t') i t' := ⟨h.h0, rfl, rfl⟩

theorem leafAt_succ_dvd {h idx i : Nat} (h1 : B h i ∣ idx + 1) (h2 : ¬ B h (i + 1) ∣ idx + 1) :
    leafAt h (idx + 1) i = leafAt h idx i + 1 := by
  unfold leafAt
  have e : (idx + 1) / B h i = idx / B h i + 1 := Nat.succ_div_of_dvd h1
  rw [e]
  apply succ_mod_of_not_dvd (Nat.two_pow_pos h)
  intro h3
  rw [← e] at h3
  apply h2
  rw [B_succ]
  obtain ⟨k, hk⟩ := h3
  exact ⟨k, by rw [← Nat.div_mul_cancel h1, hk]; ring⟩

theorem leafAt_succ_not {h idx i : Nat} (h1 : ¬ B h i ∣ idx + 1) : leafAt h (idx + 1) i = leafAt h idx i := by
  unfold leafAt; rw [div_succ_eq h1]

theorem leafAt_swap {h idx i : Nat} (h1 : B h (i + 1) ∣ idx + 1) : leafAt h (idx + 1) i = 0 := by
  unfold leafAt
  obtain ⟨k, hk⟩ := h1
  rw [hk, B_succ, mul_assoc, Nat.mul_div_cancel_left _ (B_pos h i), Nat.mul_mod_right]

theorem leafAt_room {h idx i : Nat} (h1 : B h i ∣ idx + 1) (h2 : ¬ B h (i + 1) ∣ idx + 1) : leafAt h idx i + 1 < 2 ^ h := by
  rw [← leafAt_succ_dvd h1 h2]; exact leaf_lt h _ _

theorem mask_dvd (h idx i : Nat) : ((idx + 1) &&& ((1 <<< ((i + 1) * h)) - 1) = 0) ↔ B h (i + 1) ∣ idx + 1 := by
  rw [Nat.one_shiftLeft, Nat.and_two_pow_sub_one_eq_mod, mul_comm (i + 1) h]
  exact ⟨Nat.dvd_of_mod_eq_zero, Nat.mod_eq_zero_of_dvd⟩

/-- What the loop does to the current tree of layer `i` when that does not change. -/
def InnerC (H : Bytes → Bytes) (p : Params) (skSeed pubSeed : Bytes) (C : Nat → Nat → (Nat → Nat) → BdsState → Prop) (idx i : Nat)
    (A : Nat → Nat) : Prop :=
  ∀ (upd : Nat) (cur : BdsState) (a0 : Addr), IsSub a0 i (idx / B p.tree_height (i + 1)) →
    (B p.tree_height i ∣ idx + 1 → upd = wrapUpd (p.insts / 2) i) → C i idx A cur →
    ∃ s1 q n A' s2, (B p.tree_height i ∣ idx + 1 → bdsRound H p cur (leafAt p.tree_height idx i) skSeed pubSeed a0 = some s1) ∧
      (¬ B p.tree_height i ∣ idx + 1 → s1 = cur) ∧
      (B p.tree_height i ∣ idx + 1 → q = restart p.tree_height p.tree_height (leafAt p.tree_height idx i + 1) A) ∧
      (¬ B p.tree_height i ∣ idx + 1 → q = A) ∧
      bdsTreehashUpdate H p s1 upd skSeed pubSeed a0 = some (s2, charToUnsigned (upd - n)) ∧
      Picks p.tree_height n q A' ∧ n ≤ upd ∧ (n = upd ∨ AllDone p.tree_height A') ∧ C i (idx + 1) A' s2 ∧
      cur.leaves + n ≤ s2.leaves ∧ s2.leaves ≤ cur.leaves + n + (if B p.tree_height i ∣ idx + 1 ∧ leafAt p.tree_height idx i % 2 = 0 then 1 else 0)

theorem goodC_inner (f : FastMt p) (hH : ∀ x, (H x).length = p.n) {skSeed pubSeed : Bytes} {idx i : Nat}
    (hnd : ¬ B p.tree_height (i + 1) ∣ idx + 1) {A : Nat → Nat}
    (hdone : B p.tree_height i ∣ idx + 1 → ∀ k < p.tree_height, 2 ^ (k + 1) ∣ leafAt p.tree_height idx i + 1 → A k = 2 ^ k) :
    InnerC H p skSeed pubSeed (GoodC H p skSeed pubSeed) idx i A := by
  intro upd cur a0 hsub _ ⟨base, seg, ti⟩
  have g := f.good
  have hth := g.th_lt
  have hins := f.insts
  set h := p.tree_height with hh
  set N := (suiteOf p H).node skSeed pubSeed i (idx / B h (i + 1)) with hN
  have ctx : TreeCtx H p skSeed pubSeed i (idx / B h (i + 1)) N := treeCtx_suite g hH skSeed pubSeed i _
  have htree : (idx + 1) / B h (i + 1) = idx / B h (i + 1) := div_succ_eq hnd
  -- the round, if any
  obtain ⟨s1, q, e1, e1', hq1, hq2, t1, l1, l1'⟩ : ∃ s1 q, (B h i ∣ idx + 1 → bdsRound H p cur (leafAt h idx i) skSeed pubSeed a0 = some s1) ∧
      (¬ B h i ∣ idx + 1 → s1 = cur) ∧ (B h i ∣ idx + 1 → q = restart h h (leafAt h idx i + 1) A) ∧ (¬ B h i ∣ idx + 1 → q = A) ∧
      TreeInv p N base (leafAt h (idx + 1) i) q seg s1 ∧ cur.leaves ≤ s1.leaves ∧
      s1.leaves ≤ cur.leaves + (if B h i ∣ idx + 1 ∧ leafAt h idx i % 2 = 0 then 1 else 0) := by
    by_cases hB : B h i ∣ idx + 1
    · obtain ⟨s1, e1, t1, n1, l1⟩ := bdsRound_eq ctx hth hsub ti (leafAt_room hB hnd) (by rw [hins]; exact hdone hB)
      rw [hins, ← leafAt_succ_dvd hB hnd] at t1
      refine ⟨s1, _, fun _ => e1, fun h => absurd hB h, fun _ => by rw [← leafAt_succ_dvd hB hnd], fun h => absurd hB h, t1, by omega, ?_⟩
      simp only [hB, true_and]
      rw [l1]
    · refine ⟨cur, A, fun h => absurd h hB, fun _ => rfl, fun h => absurd h hB, fun _ => rfl, ?_, by omega, by omega⟩
      rw [leafAt_succ_not hB]; exact ti
  -- the updates
  obtain ⟨n, A', seg', s2, e2, pk, w2, hle, hor, sm, l2⟩ := bdsTreehashUpdate_eq ctx hth hsub upd t1.work
  have t2 := Ready.same_work t1 sm w2
  rw [hins] at pk hor
  refine ⟨s1, q, n, A', s2, e1, e1', hq1, hq2, e2, pk, hle, hor, ?_, by omega, by omega⟩
  unfold GoodC
  rw [← hh, htree]
  exact ⟨base, seg', t2⟩

set_option maxHeartbeats 1000000 in
/-- The branch without a change of tree. -/
theorem mtStepInner_gen (f : FastMt p) (hH : ∀ x, (H x).length = p.n) {skSeed pubSeed : Bytes} {idx i : Nat} (hi : i < p.d)
    (hnd : ¬ B p.tree_height (i + 1) ∣ idx + 1) {A : Nat → Nat} {c : Nat} {z : Nat → Option Bytes}
    {C : Nat → Nat → (Nat → Nat) → BdsState → Prop} {Sg : Nat → Nat → Option Bytes → Prop}
    (hC : InnerC H p skSeed pubSeed C idx i A) (hSg : ∀ sig, Sg i idx sig → Sg i (idx + 1) sig) :
    StepOk H p skSeed pubSeed (LayerQ H p skSeed pubSeed z C Sg) idx i A c := by
  intro v cur hlen hslen hswle hswiff hots hupd hcur ⟨hcC, hnext⟩
  have g := f.good
  have hth := g.th_lt
  have hins := f.insts
  have hd2 := f.d
  have hfh : p.tree_height < p.full_height := by
    rw [← g.height]
    have h1 : p.tree_height * 2 ≤ p.tree_height * p.d := Nat.mul_le_mul_left _ hd2
    have := g.th_pos
    omega
  have hnl0 : i + 1 < p.d → p.d + i < v.states.length := fun _ => by omega
  have hne : i ≠ p.d + i := by omega
  set h := p.tree_height with hh
  set a0 := setTreeAddr (setLayerAddr v.addr i) (idx / B h (i + 1)) with ha0
  have hsub : IsSub a0 i (idx / B h (i + 1)) := isSub_layer _ _ _
  have hcl := (List.getElem?_eq_some_iff.mp hcur).1
  obtain ⟨s1, q, n, A', s2, e0, e0', hq1, hq2, e2, pk, hle, hor, hC2, l2, l2'⟩ := hC v.updates cur a0 hsub hupd hcC
  have e1 : (if i = v.swap then bdsRound H p cur (leafAt h idx i) skSeed pubSeed a0 else some cur : Option BdsState) = some s1 := by
    by_cases hB : B h i ∣ idx + 1
    · rw [if_pos (hswiff.mpr hB).symm]; exact e0 hB
    · rw [if_neg (fun h => hB (hswiff.mp h.symm)), e0' hB]
  have hswB : (if B h i ∣ idx + 1 then 1 else 0) = (if v.swap = i then 1 else 0) := by
    by_cases hB : B h i ∣ idx + 1
    · rw [if_pos hB, if_pos (hswiff.mpr hB)]
    · rw [if_neg hB, if_neg (fun h => hB (hswiff.mp h))]
  rw [← hh] at hq1 hq2 pk hor
  rw [← hh] at l2'
  have hup : s2.leaves + remWork h A' + (if i + 1 < p.d then 1 else 0) ≤ cur.leaves + maxWork h p.d idx i A := by
    have hr := pk.remWork
    unfold maxWork
    rw [if_neg hnd]
    by_cases hB : B h i ∣ idx + 1
    · simp only [hB, true_and, if_true] at l2' ⊢
      rw [hq1 hB] at hr
      omega
    · simp only [hB, false_and, if_false] at l2' ⊢
      rw [hq2 hB] at hr
      omega
  have l2' : s2.leaves ≤ cur.leaves + n + (if v.swap = i then 1 else 0) := by
    rw [← hswB]
    refine l2'.trans (Nat.add_le_add_left ?_ _)
    split <;> split <;> first | omega | (rename_i a b; exact absurd a.1 b)
  have hrem := pk.remWork
  have hts := totalLeaves_set (y := s2) hcur
  have htree : (idx + 1) / B h (i + 1) = idx / B h (i + 1) := div_succ_eq hnd
  have hcode := hasNext_code g (idx := idx) hi
  rw [mtStep, if_pos (by rw [mask_dvd]; exact hnd), mtStepInner]
  simp only [Option.bind_eq_bind]
  rw [leafAt_code, treeAt_code, ← hh, ← ha0, hcur]
  simp only [Option.bind_some]
  rw [e1]
  simp only [Option.bind_some]
  rw [e2]
  simp only [Option.bind_some]
  rw [← hh] at hcode
  by_cases hx : HasNext h p.d idx i ∧ 0 < i ∧ 0 < charToUnsigned (v.updates - n)
  · -- the next tree gets a leaf
    rw [if_pos ⟨hcode.mpr hx.1, hx.2⟩]
    have hid : i + 1 < p.d := by
      by_contra hc
      have h1 := hx.1
      have hz : p.d - i - 1 = 0 := by clear hcode hx h1 hrem hts; omega
      rw [HasNext, hz, Nat.mul_zero, pow_zero] at h1
      exact absurd h1 (Nat.not_lt.mpr (Nat.le_add_right _ _))
    obtain ⟨nx, hnx, hnl, hcle, bi, hz, hsig⟩ := hnext hid
    have hnl' := hnl0 hid
    rw [List.getElem?_set_ne hne, hnx]
    simp only [Option.bind_some]
    have hlt : nx.nextLeaf < 2 ^ p.full_height := by
      rw [hnl]
      exact lt_of_le_of_lt hcle (Nat.pow_lt_pow_right (a := 2) (by omega) hfh)
    rw [if_pos hlt]
    have ctx' := treeCtx_suite g hH skSeed pubSeed i (idx / B h (i + 1) + 1)
    obtain ⟨nx', e3, b3, n3, l3, fr3⟩ := bdsStateUpdate_eq ctx' hth (by have := f.th; omega) (by rw [f.k]; omega)
      (isSub_tree hsub (idx / B h (i + 1) + 1)) (s := nx) (by rw [hnl]; exact bi) (by rw [hnl]; exact hcle)
    rw [e3]
    simp only [Option.bind_some]
    have hgn : (v.states.set i s2)[p.d + i]? = some nx := by rw [List.getElem?_set_ne hne, hnx]
    have hts2 := totalLeaves_set (y := nx') hgn
    have hl4 : nx.leaves + (min (c + 1) (2 ^ h) - c) ≤ nx'.leaves := by
      rw [l3, hnl, ← hh]
      split <;> omega
    have hl3 : nx.leaves ≤ nx'.leaves ∧ nx'.leaves ≤ nx.leaves + 1 := by rw [l3]; split <;> omega
    refine ⟨_, A', min (c + 1) (2 ^ h), s2, rfl, ?_, rfl, ?_, hots, ?_, ?_, ?_, ?_, ?_, ?_⟩
    · simp only [List.length_set]
    · simp only [if_neg hnd]
    · simp only
      rw [List.getElem?_set_ne hne.symm, List.getElem?_set_self hcl]
    · simp only
      rw [List.getElem?_set_self (by rw [List.length_set]; exact hnl')]
      unfold LayerQ
      rw [← hh, htree]
      refine ⟨hC2, fun _ => ⟨nx', rfl, ?_, by omega, ?_, ?_, hSg _ hsig⟩⟩
      · rw [n3, hnl]
      · rw [n3, hnl] at b3; exact b3
      · intro x hx' hlt'
        rw [fr3 (by rw [n3, hnl]; exact hlt')]
        exact hz x hx' (by omega)
    · intro j h1 h2
      simp only
      rw [List.getElem?_set_ne (Ne.symm h2), List.getElem?_set_ne (Ne.symm h1)]
    · intro j _; rfl
    · exact Or.inr ⟨hnd, n, q, hq1, hq2, pk, hle, hor, Or.inl ⟨hx.1, hx.2.1, hx.2.2, rfl, rfl⟩⟩
    · refine ⟨?_, by simp only; omega, ?_, ?_, ?_⟩
      · intro hu _
        simp only [and_self]
        have e : charToUnsigned (v.updates - n) = v.updates - n := charToUnsigned_eq (by omega)
        rw [e] at hx ⊢
        omega
      · intro _ hB
        simp only
        rw [hq1 hB] at hrem
        omega
      · intro _
        simp only
        omega
      · simp only
        rw [if_pos hid] at hup
        omega
  · rw [if_neg (fun hc => hx ⟨hcode.mp hc.1, hc.2⟩)]
    refine ⟨_, A', c, s2, rfl, ?_, rfl, ?_, hots, ?_, ?_, ?_, ?_, ?_, ?_⟩
    · simp only [List.length_set]
    · simp only [if_neg hnd]
    · simp only
      rw [List.getElem?_set_self hcl]
    · simp only
      rw [List.getElem?_set_ne (by omega)]
      unfold LayerQ
      rw [← hh, htree]
      refine ⟨hC2, fun hi' => ?_⟩
      obtain ⟨nx, a1, a2, a3, a4, a5, a6⟩ := hnext hi'
      exact ⟨nx, a1, a2, a3, a4, a5, hSg _ a6⟩
    · intro j h1 h2
      simp only
      rw [List.getElem?_set_ne (Ne.symm h1)]
    · intro j _; rfl
    · exact Or.inr ⟨hnd, n, q, hq1, hq2, pk, hle, hor, Or.inr ⟨hx, rfl, rfl⟩⟩
    · refine ⟨?_, by simp only; omega, ?_, ?_, ?_⟩
      · intro hu _
        simp only [and_self]
        have e : charToUnsigned (v.updates - n) = v.updates - n := charToUnsigned_eq (by omega)
        rw [e]
        omega
      · intro _ hB
        simp only
        rw [hq1 hB] at hrem
        omega
      · intro _
        simp only
        omega
      · simp only
        omega

theorem goodSig_inner {skSeed pubSeed : Bytes} {idx i : Nat} (hnd : ¬ B p.tree_height (i + 1) ∣ idx + 1) (sig : Option Bytes)
    (h : GoodSig H p skSeed pubSeed i idx sig) : GoodSig H p skSeed pubSeed i (idx + 1) sig := by
  unfold GoodSig at h ⊢
  have hnd2 : ¬ B p.tree_height (i + 2) ∣ idx + 1 := not_dvd_up (by omega) hnd
  rw [div_succ_eq hnd, div_succ_eq hnd2, leafAt_succ_not (i := i + 1) hnd]
  exact h

/-- The branch without a change of tree, in good order. -/
theorem mtStepInner_eq (f : FastMt p) (hH : ∀ x, (H x).length = p.n) {skSeed pubSeed : Bytes} {idx i : Nat} (hi : i < p.d)
    (hnd : ¬ B p.tree_height (i + 1) ∣ idx + 1) {A : Nat → Nat} {c : Nat}
    {z : Nat → Option Bytes} (hdone : B p.tree_height i ∣ idx + 1 → ∀ k < p.tree_height, 2 ^ (k + 1) ∣ leafAt p.tree_height idx i + 1 → A k = 2 ^ k) :
    StepOk H p skSeed pubSeed (GoodLayer H p skSeed pubSeed z) idx i A c :=
  mtStepInner_gen f hH hi hnd (goodC_inner f hH hnd hdone) (goodSig_inner hnd)

/-- The tree built ahead takes over. -/
theorem BuildInv.takeOver {N : Nat → Nat → Bytes} {s : BdsState} (b : BuildInv p N (2 ^ p.tree_height) s) (hth : p.tree_height < 31) :
    s.stack[0]? = some (N p.tree_height 0) ∧
    TreeInv p N [(N p.tree_height 0, p.tree_height)] 0 (fun i => 2 ^ i) (fun _ => [])
      { s with treehash := s.treehash.map (fun t => { t with completed := 1 }) } := by
  obtain ⟨L, hr, hs⟩ := b.stack
  have hL := hs.full
  rw [Nat.zero_add] at hL
  subst hL
  refine ⟨?_, ?_⟩
  · exact hr.stack.top
  · refine b.treeInv (s' := { s with treehash := s.treehash.map (fun t => { t with completed := 1 }) }) ?_ rfl rfl ?_ ⟨hr.off, hr.stack, hr.levels⟩ (by simp) (by simp; omega)
    · exact { b.shape with
        insts_len := by simp only [List.length_map]; exact b.shape.insts_len
        insts_mem := by
          intro t ht
          simp only [List.mem_map] at ht
          obtain ⟨t0, h0, rfl⟩ := ht
          obtain ⟨h1, h2, h3, h4, h5⟩ := b.shape.insts_mem t0 h0
          exact ⟨h1, h2, h3, by simp, h5⟩ }
    · intro i t ht
      refine ⟨{ t with completed := 1 }, ?_, rfl, by simp⟩
      simp only [List.getElem?_map, ht, Option.map_some]

/-- A state released by its tree starts the next one. -/
theorem Shape.fresh {N : Nat → Nat → Bytes} {s : BdsState} (sh : Shape p s) :
    BuildInv p N 0 { s with stackoffset := 0, nextLeaf := 0 } :=
  ⟨{ sh with off_lt := by simp, next_lt := by simp }, ⟨[], ⟨rfl, RepL.nil _, RepL.nil _⟩, IsStk.nil 0⟩, by
    intro i r _ h
    have : 0 < (2 * r + 2) * 2 ^ i := Nat.mul_pos (by omega) (Nat.two_pow_pos i)
    omega⟩

/-- The branch with a change of tree. -/
theorem mtStepSwap_eq (f : FastMt p) (hH : ∀ x, (H x).length = p.n) {skSeed pubSeed : Bytes} {idx i : Nat}
    (hlast : idx + 1 < 2 ^ p.full_height) (hd : B p.tree_height (i + 1) ∣ idx + 1) {A : Nat → Nat} {z : Nat → Option Bytes}
    (hz : z i = none) :
    StepOk H p skSeed pubSeed (GoodLayer H p skSeed pubSeed z) idx i A (2 ^ p.tree_height) := by
  intro v cur hlen hslen hswle hswiff hots hupd hcur ⟨⟨base, seg, ti⟩, hnext⟩
  have g := f.good
  have hth := g.th_lt
  have hins := f.insts
  have hd2 := f.d
  have hid : i + 1 < p.d := by
    by_contra hc
    have h1 : B p.tree_height p.d ∣ idx + 1 := (B_dvd (by omega)).trans hd
    have := Nat.le_of_dvd (by omega) h1
    rw [B, g.height] at this
    omega
  obtain ⟨nx, hnx, hnl, hcle, bi, _, hsig⟩ := hnext hid
  set h := p.tree_height with hh
  obtain ⟨hroot, ti'⟩ := bi.takeOver hth
  have hcl := (List.getElem?_eq_some_iff.mp hcur).1
  have hnl' : p.d + i < v.states.length := by omega
  have hne : i ≠ p.d + i := by omega
  have htree : (idx + 1) / B h (i + 1) = idx / B h (i + 1) + 1 := Nat.succ_div_of_dvd hd
  set N' := (suiteOf p H).node skSeed pubSeed i (idx / B h (i + 1) + 1) with hN'
  have hrl : (N' h 0).length = p.n := node_length g hH _ _ _ _ _ _
  set oa := setOtsAddr (setTreeAddr (setLayerAddr v.otsAddr (i + 1)) ((idx + 1) >>> ((i + 2) * h)))
    (((idx >>> ((i + 1) * h)) + 1) &&& ((1 <<< h) - 1)) with hoa
  have hots' : IsOts oa (i + 1) ((idx + 1) / B h (i + 2)) (leafAt h (idx + 1) (i + 1)) := by
    have e1 : (idx + 1) >>> ((i + 2) * h) = (idx + 1) / B h (i + 2) := by
      rw [Nat.shiftRight_eq_div_pow, mul_comm]; rfl
    have e2 : ((idx >>> ((i + 1) * h)) + 1) &&& ((1 <<< h) - 1) = leafAt h (idx + 1) (i + 1) := by
      rw [Nat.one_shiftLeft, Nat.and_two_pow_sub_one_eq_mod, Nat.shiftRight_eq_div_pow, mul_comm (i + 1) h]
      show (idx / B h (i + 1) + 1) % 2 ^ h = _
      rw [← htree]
      rfl
    rw [hoa, e1, e2]
    exact ⟨rfl, rfl, rfl, hots, rfl⟩
  obtain ⟨w1, w2⟩ := wotsSign_eq (H := H) g skSeed pubSeed hrl oa hots'
  have hsl : i < v.sigs.length := by omega
  rw [mtStep, if_neg (by rw [mask_dvd]; exact fun hc => hc hd), if_pos (by omega), mtStepSwap, swapStates, hcur, hnx]
  simp only [Option.bind_eq_bind, Option.bind_some]
  rw [List.getElem?_set_ne hne.symm, List.getElem?_set_self hcl]
  simp only [Option.bind_some]
  rw [hroot]
  simp only [Option.bind_some]
  rw [setA_some hsl, ← hh, ← hoa]
  simp only [Option.bind_some]
  rw [List.getElem?_set_self (by rw [List.length_set]; exact hnl')]
  simp only [Option.bind_some]
  have hne' : p.d + i ≠ i := hne.symm
  have hstates : ∀ (x y z w : BdsState), (((v.states.set i x).set (p.d + i) y).set (p.d + i) z).set i w =
      (v.states.set i w).set (p.d + i) z := by
    intro x y z w
    rw [List.set_set, List.set_comm _ _ hne, List.set_set, List.set_comm _ _ hne']
  rw [hstates]
  have hts := totalLeaves_set (y := { nx with treehash := nx.treehash.map (fun t => { t with completed := 1 }) }) hcur
  have hts2 := totalLeaves_set (l := v.states.set i { nx with treehash := nx.treehash.map (fun t => { t with completed := 1 }) })
    (i := p.d + i) (x := nx) (y := { cur with stackoffset := 0, nextLeaf := 0 }) (by rw [List.getElem?_set_ne hne]; exact hnx)
  simp only at hts hts2
  refine ⟨_, fun j => 2 ^ j, 0, { nx with treehash := nx.treehash.map (fun t => { t with completed := 1 }) }, rfl, ?_, ?_, ?_, ?_, ?_,
    ?_, ?_, ?_, ?_, ?_⟩
  · simp only [List.length_set]
  · simp only [List.length_set]
  · simp only [if_pos hd]
  · exact w2.h3
  · simp only
    rw [List.getElem?_set_ne hne.symm, List.getElem?_set_self hcl]
  · simp only
    rw [List.getElem?_set_self (by rw [List.length_set]; exact hnl'), List.getElem?_set_self hsl]
    unfold GoodLayer LayerQ GoodC GoodSig
    rw [← hh, htree, leafAt_swap hd, w1]
    refine ⟨⟨_, _, ti'⟩, fun _ => ⟨_, rfl, rfl, Nat.zero_le _, ti.work.shape.fresh, fun x hx => (by rw [hz] at hx; cases hx), ?_⟩⟩
    rw [hN']
  · intro j h1 h2
    simp only
    rw [List.getElem?_set_ne (Ne.symm h2), List.getElem?_set_ne (Ne.symm h1)]
  · intro j h1
    simp only
    rw [List.getElem?_set_ne (Ne.symm h1)]
  · exact Or.inl ⟨hd, rfl, rfl, rfl⟩
  · refine ⟨?_, by simp only; omega, fun h1 => absurd hd h1, fun h1 => absurd hd h1, by simp only; omega⟩
    intro hu hpos
    have := hpos hd
    simp only
    omega

end Xmss
