import Verif.Proof.MtBad
import Verif.Proof.MtKeygen
/-
Multi-tree fast implementation with trees of height five and at least five layers: what happens from index 2^20 on,
when a tree of layer 3 that is not complete takes over.
-/
namespace Xmss
open Sched

variable {H : Bytes → Bytes} {p : Params}

/-- Only the last slot of the authentication path of layer 3 is watched. -/
def z3 (x : Option Bytes) : Nat → Option Bytes := fun i => if i = 3 then x else none

/-- A signature of the right size. -/
def LenSig (p : Params) (_i _t : Nat) (sig : Option Bytes) : Prop := ∃ s, sig = some s ∧ s.length = p.wots_sig_bytes

/-- Layer 3 after the unfinished tree took over. -/
def BadLayer (H : Bytes → Bytes) (p : Params) (skSeed pubSeed : Bytes) (x : Option Bytes) : LayerPred :=
  LayerQ H p skSeed pubSeed (fun _ => none) (BadC p x) (LenSig p)

/-- All layers in good order, but for layer 3 from index `2^20` on. -/
def MixQ (H : Bytes → Bytes) (p : Params) (skSeed pubSeed : Bytes) (x : Option Bytes) : LayerPred := fun i t =>
  if i = 3 ∧ 2 ^ 20 ≤ t then BadLayer H p skSeed pubSeed x i t else GoodLayer H p skSeed pubSeed (z3 x) i t

theorem StepOk.congr {skSeed pubSeed : Bytes} {Q Q' : LayerPred} {idx i : Nat} {A : Nat → Nat} {c : Nat} (h1 : Q i idx = Q' i idx)
    (h2 : Q i (idx + 1) = Q' i (idx + 1)) (h : StepOk H p skSeed pubSeed Q' idx i A c) : StepOk H p skSeed pubSeed Q idx i A c := by
  unfold StepOk at h ⊢
  rw [h1, h2]
  exact h

/-- The branch with a change of tree, whatever the state of the tree. -/
theorem mtStepSwap_run (f : FastMt p) {skSeed pubSeed : Bytes} {idx i : Nat}
    (hlast : idx + 1 < 2 ^ p.full_height) (hid : i + 1 < p.d) (hd : B p.tree_height (i + 1) ∣ idx + 1) {v : MtLocals} {cur nx : BdsState}
    {root : Bytes} (hlen : v.states.length = 2 * p.d - 1) (hslen : v.sigs.length = p.d - 1) (hots : v.otsAddr.a3 = UInt32.ofNat 0)
    (hcur : v.states[i]? = some cur) (hnx : v.states[p.d + i]? = some nx) (hroot : nx.stack[0]? = some root) (hrl : root.length = p.n) :
    ∃ oa : Addr, oa.a3 = UInt32.ofNat 0 ∧ mtStep H p skSeed pubSeed idx i v = some
      { states := (v.states.set i { nx with treehash := nx.treehash.map (fun t => { t with completed := 1 }) }).set (p.d + i)
          { cur with stackoffset := 0, nextLeaf := 0 }
        sigs := v.sigs.set i ((suiteOf p H).wotsSig skSeed pubSeed root (i + 1) ((idx + 1) / B p.tree_height (i + 2))
          (leafAt p.tree_height (idx + 1) (i + 1))).flatten
        updates := (v.updates + 2 ^ 32 - 1) % 2 ^ 32, swap := i + 1, addr := v.addr, otsAddr := oa } := by
  have g := f.good
  have hd2 := f.d
  set h := p.tree_height with hh
  have hcl := (List.getElem?_eq_some_iff.mp hcur).1
  have hnl' : p.d + i < v.states.length := by omega
  have hne : i ≠ p.d + i := by omega
  have htree : (idx + 1) / B h (i + 1) = idx / B h (i + 1) + 1 := Nat.succ_div_of_dvd hd
  set oa := setOtsAddr (setTreeAddr (setLayerAddr v.otsAddr (i + 1)) ((idx + 1) >>> ((i + 2) * h)))
    (((idx >>> ((i + 1) * h)) + 1) &&& ((1 <<< h) - 1)) with hoa
  have hots' : IsOts oa (i + 1) ((idx + 1) / B h (i + 2)) (leafAt h (idx + 1) (i + 1)) := by
    have e1 : (idx + 1) >>> ((i + 2) * h) = (idx + 1) / B h (i + 2) := by
      rw [Nat.shiftRight_eq_div_pow, mul_comm]; rfl
    have e2 : ((idx >>> ((i + 1) * h)) + 1) &&& ((1 <<< h) - 1) = leafAt h (idx + 1) (i + 1) := by
      rw [Nat.one_shiftLeft, Nat.and_two_pow_sub_one_eq_mod, Nat.shiftRight_eq_div_pow, mul_comm (i + 1) h]
      show (idx / B h (i + 1) + 1) % 2 ^ h = _
      rw [← htree]
      rfl
    rw [hoa, e1, e2]
    exact ⟨rfl, rfl, rfl, hots, rfl⟩
  obtain ⟨w1, w2⟩ := wotsSign_eq (H := H) g skSeed pubSeed hrl oa hots'
  have hsl : i < v.sigs.length := by omega
  refine ⟨_, w2.h3, ?_⟩
  rw [mtStep, if_neg (by rw [mask_dvd]; exact fun hc => hc hd), if_pos (by omega), mtStepSwap, swapStates, hcur, hnx]
  simp only [Option.bind_eq_bind, Option.bind_some]
  rw [List.getElem?_set_ne hne.symm, List.getElem?_set_self hcl]
  simp only [Option.bind_some]
  rw [hroot]
  simp only [Option.bind_some]
  rw [setA_some hsl, ← hh, ← hoa]
  simp only [Option.bind_some]
  rw [List.getElem?_set_self (by rw [List.length_set]; exact hnl')]
  simp only [Option.bind_some]
  have hne' : p.d + i ≠ i := hne.symm
  have hstates : ∀ (x y z w : BdsState), (((v.states.set i x).set (p.d + i) y).set (p.d + i) z).set i w =
      (v.states.set i w).set (p.d + i) z := by
    intro x y z w
    rw [List.set_set, List.set_comm _ _ hne, List.set_set, List.set_comm _ _ hne']
  rw [hstates, w1]

/-- A stack of 31 leaves has five nodes. -/
theorem IsStk.len31 {N : Nat → Nat → Bytes} {L : List (Bytes × Nat)} (h : IsStk N 0 31 L) : L.length = 5 := by
  obtain ⟨L1, rfl, h1⟩ := IsStk.inv_odd (m := 15) h
  obtain ⟨L2, rfl, h2⟩ := IsStk.inv_odd (m := 7) h1
  obtain ⟨L3, rfl, h3⟩ := IsStk.inv_odd (m := 3) h2
  obtain ⟨L4, rfl, h4⟩ := IsStk.inv_odd (m := 1) h3
  obtain ⟨L5, rfl, h5⟩ := IsStk.inv_odd (m := 0) h4
  rw [h5.of_zero rfl]
  rfl

theorem Shape.completed {s : BdsState} (sh : Shape p s) : Shape p { s with treehash := s.treehash.map (fun t => { t with completed := 1 }) } :=
  { sh with
    insts_len := by simp only [List.length_map]; exact sh.insts_len
    insts_mem := by
      intro t ht
      simp only [List.mem_map] at ht
      obtain ⟨t0, h0, rfl⟩ := ht
      obtain ⟨h1, h2, h3, h4, h5⟩ := sh.insts_mem t0 h0
      exact ⟨h1, h2, h3, by simp, h5⟩ }

/-- The unfinished tree takes over. -/
theorem mtStepSwap_bad (f : FastMt p) (ht : p.tree_height = 5) (h5 : 5 ≤ p.d) (hH : ∀ x, (H x).length = p.n) {skSeed pubSeed : Bytes}
    {x : Option Bytes} {idx : Nat} (hidx : idx = 2 ^ 20 - 1) {A : Nat → Nat} :
    StepOk H p skSeed pubSeed (MixQ H p skSeed pubSeed x) idx 3 A 31 := by
  intro v cur hlen hslen hswle hswiff hots hupd hcur hq
  have g := f.good
  have hins : p.insts = 5 := by rw [f.insts, ht]
  rw [MixQ, if_neg (by omega)] at hq
  obtain ⟨⟨base, seg, ti⟩, hnext⟩ := hq
  obtain ⟨nx, hnx, hnl, hcle, bi, hz, hsig⟩ := hnext (by omega)
  have hd : B p.tree_height (3 + 1) ∣ idx + 1 := by rw [ht, hidx]; decide
  have hlast : idx + 1 < 2 ^ p.full_height := by
    have h1 : 25 ≤ p.full_height := by rw [← g.height, ht]; omega
    have h2 : 2 ^ 25 ≤ 2 ^ p.full_height := Nat.pow_le_pow_right (by omega) h1
    omega
  have hsl0 : 0 < nx.stack.length := by rw [bi.shape.stack_len]; omega
  have hrl : nx.stack[0].length = p.n := bi.shape.stack_mem _ (List.getElem_mem hsl0)
  obtain ⟨oa, ho, e⟩ := mtStepSwap_run (H := H) (skSeed := skSeed) (pubSeed := pubSeed) f hlast (by omega) hd hlen hslen hots hcur hnx
    (List.getElem?_eq_getElem hsl0) hrl
  have hcl := (List.getElem?_eq_some_iff.mp hcur).1
  have hnl' : p.d + 3 < v.states.length := by omega
  have hne : 3 ≠ p.d + 3 := by omega
  have hsl : 3 < v.sigs.length := by omega
  have hts := totalLeaves_set (y := { nx with treehash := nx.treehash.map (fun t => { t with completed := 1 }) }) hcur
  have hts2 := totalLeaves_set (l := v.states.set 3 { nx with treehash := nx.treehash.map (fun t => { t with completed := 1 }) })
    (i := p.d + 3) (x := nx) (y := { cur with stackoffset := 0, nextLeaf := 0 }) (by rw [List.getElem?_set_ne hne]; exact hnx)
  simp only at hts hts2
  refine ⟨_, fun j => 2 ^ j, 0, { nx with treehash := nx.treehash.map (fun t => { t with completed := 1 }) }, e, ?_, ?_, ?_, ho, ?_,
    ?_, ?_, ?_, ?_, ?_⟩
  · simp only [List.length_set]
  · simp only [List.length_set]
  · simp only [if_pos hd]
  · simp only
    rw [List.getElem?_set_ne hne.symm, List.getElem?_set_self hcl]
  · simp only
    rw [List.getElem?_set_self (by rw [List.length_set]; exact hnl'), List.getElem?_set_self hsl]
    rw [MixQ, if_pos ⟨rfl, by omega⟩]
    refine ⟨⟨bi.shape.completed, ?_, ?_, fun _ _ => rfl, ?_⟩, fun _ => ⟨_, rfl, rfl, Nat.zero_le _, ti.work.shape.fresh, (fun y hy => by cases hy), ?_⟩⟩
    · obtain ⟨L, hr, hs⟩ := bi.stack
      simp only
      rw [hr.off, hs.len31]
    · intro j hj
      have hj' : j < nx.treehash.length := by rw [bi.shape.insts_len, hins]; exact hj
      exact ⟨{ nx.treehash[j] with completed := 1 }, by simp [List.getElem?_eq_getElem hj'], by simp⟩
    · intro _ y hy
      have := hz y (by rw [z3, if_pos rfl]; exact hy) (by rw [ht]; decide)
      rw [ht] at this
      exact this
    · exact ⟨_, rfl, by rw [wotsSig_flat_length g hH, g.sig_wots]⟩
  · intro j h1 h2
    simp only
    rw [List.getElem?_set_ne (Ne.symm h2), List.getElem?_set_ne (Ne.symm h1)]
  · intro j h1
    simp only
    rw [List.getElem?_set_ne (Ne.symm h1)]
  · exact Or.inl ⟨hd, rfl, rfl, rfl⟩
  · refine ⟨?_, by simp only; omega, fun h1 => absurd hd h1, fun h1 => absurd hd h1, by simp only; omega⟩
    intro hu hpos
    have := hpos hd
    simp only
    omega

theorem not_dvd_bad {idx : Nat} (h1 : 2 ^ 20 ≤ idx) (h2 : idx < 2 ^ 20 + 2 ^ 18) : ¬ B 5 (3 + 1) ∣ idx + 1 := by
  have e : B 5 (3 + 1) = 2 ^ 20 := by decide
  rw [e]
  omega

theorem dvd_low {idx j : Nat} (h2 : idx < 2 ^ 20 + 2 ^ 18) (hB : B 5 (j + 1) ∣ idx + 1) : j ≤ 3 ∧ (j = 3 → idx = 2 ^ 20 - 1) := by
  have hj : j ≤ 3 := by
    by_contra hc
    have h1 : B 5 5 ∣ idx + 1 := (B_dvd (by omega)).trans hB
    have h3 := Nat.le_of_dvd (by omega) h1
    have e : B 5 5 = 2 ^ 25 := by decide
    omega
  refine ⟨hj, ?_⟩
  rintro rfl
  have e : B 5 (3 + 1) = 2 ^ 20 := by decide
  rw [e] at hB
  omega

/-- Every layer is handled before the overflow; layers up to 2 are handled in the call with the overflow, too. -/
theorem mix_step (f : FastMt p) (ht : p.tree_height = 5) (h5 : 5 ≤ p.d) (hd100 : p.d ≤ 100) (hH : ∀ x, (H x).length = p.n) {skSeed pubSeed : Bytes}
    {x : Option Bytes} {idx : Nat} (hidx : idx < 2 ^ 20 + 2 ^ 18) {A : Nat → Nat → Nat} {c c' : Nat → Nat}
    (P : Plan p.tree_height (p.insts / 2) p.d idx A c) (hin : NlIn p.tree_height p.d idx c c') {j : Nat} (hj : j < p.d)
    (hj3 : idx + 1 < 2 ^ 20 + 2 ^ 18 ∨ j < 3) :
    StepOk H p skSeed pubSeed (MixQ H p skSeed pubSeed x) idx j (A j) (c' j) := by
  have g := f.good
  have hins := f.insts
  have hlast : idx + 1 < 2 ^ p.full_height := by
    have h1 : 25 ≤ p.full_height := by rw [← g.height, ht]; omega
    have h2 : 2 ^ 25 ≤ 2 ^ p.full_height := Nat.pow_le_pow_right (by omega) h1
    omega
  have hBd : B p.tree_height p.d = 2 ^ p.full_height := by rw [B, g.height]
  have hgood : ¬ B p.tree_height (j + 1) ∣ idx + 1 → (j ≠ 3 ∨ idx + 1 < 2 ^ 20) →
      StepOk H p skSeed pubSeed (MixQ H p skSeed pubSeed x) idx j (A j) (c' j) := by
    intro hB hor
    refine StepOk.congr (Q' := GoodLayer H p skSeed pubSeed (z3 x)) (by rw [MixQ, if_neg (by omega)]) (by rw [MixQ, if_neg (by omega)]) ?_
    apply mtStepInner_eq f hH hj hB
    intro hBj k hk hdv
    by_cases hj0 : j = 0
    · subst hj0
      exact done_at_deadline (P.nested 0 hj) P.inTime0 hk hdv
    · exact P.done f.th (by rw [hins]) (by omega) hj hBj k hk
  by_cases hB : B p.tree_height (j + 1) ∣ idx + 1
  · rw [ht] at hB
    obtain ⟨hj', hj3'⟩ := dvd_low hidx hB
    by_cases h3 : j = 3
    · subst h3
      have hi := hj3' rfl
      have : c' 3 = 31 := by
        rw [hin.2.2 3 (by omega), P.nlTop (by rw [hins, ht, hi]; decide) (by omega) hd100 3 (by rw [hins, ht]; omega) (by omega), hins, ht, hi]
        decide
      rw [this]
      exact mtStepSwap_bad f ht h5 hH hi
    · refine StepOk.congr (Q' := GoodLayer H p skSeed pubSeed (z3 x)) (by rw [MixQ, if_neg (by omega)]) (by rw [MixQ, if_neg (by omega)]) ?_
      rw [P.ready hin hj (by rw [hBd]; exact hlast) (by rw [hins, ht]; omega) (by rw [ht]; exact hB)]
      exact mtStepSwap_eq f hH hlast (by rw [ht]; exact hB) (by rw [z3, if_neg h3])
  · by_cases h3 : j = 3
    · subst h3
      by_cases hi : idx + 1 < 2 ^ 20
      · exact hgood hB (Or.inr hi)
      · have hi' : 2 ^ 20 ≤ idx := by
          by_contra hc
          have : idx = 2 ^ 20 - 1 := by omega
          apply hB
          rw [ht, this]
          decide
        refine StepOk.congr (Q' := BadLayer H p skSeed pubSeed x) (by rw [MixQ, if_pos ⟨rfl, by omega⟩]) (by rw [MixQ, if_pos ⟨rfl, by omega⟩]) ?_
        exact mtStepInner_gen f hH hj hB (badC_inner f ht hH hi' (by omega)) (fun _ h => h)
    · exact hgood hB (Or.inl h3)

/-- All layers before signature `idx`. -/
def MixInv (H : Bytes → Bytes) (p : Params) (skSeed pubSeed : Bytes) (x : Option Bytes) (idx : Nat) (states : List BdsState) (sigs : List Bytes) : Prop :=
  ∃ A c, MtInvQ p (MixQ H p skSeed pubSeed x) idx states sigs A c

theorem mixQ_zero {skSeed pubSeed : Bytes} {x : Option Bytes} (idx : Nat) :
    MixQ H p skSeed pubSeed x 0 idx = GoodLayer H p skSeed pubSeed (z3 x) 0 idx := by rw [MixQ, if_neg (by omega)]

theorem mtTraverse_mix (f : FastMt p) (ht : p.tree_height = 5) (h5 : 5 ≤ p.d) (hd100 : p.d ≤ 100) (hH : ∀ x, (H x).length = p.n)
    {skSeed pubSeed : Bytes} {x : Option Bytes} {idx : Nat} (hidx : idx + 1 < 2 ^ 20 + 2 ^ 18) {states : List BdsState} {sigs : List Bytes}
    (m : MixInv H p skSeed pubSeed x idx states sigs) {oa : Addr} (ho : oa.a3 = UInt32.ofNat 0) :
    ∃ v, mtTraverse H p skSeed pubSeed idx states sigs oa = some v ∧ MixInv H p skSeed pubSeed x (idx + 1) v.states v.sigs := by
  obtain ⟨A, c, m⟩ := m
  obtain ⟨v, A', c', e, m'⟩ := mtTraverse_gen f hH (mixQ_zero idx) m
    (fun c' hin j hj => mix_step f ht h5 hd100 hH (by omega) m.plan hin hj (Or.inl hidx)) ho
  exact ⟨v, e, A', c', m'⟩

theorem mtTraverse_overflow (f : FastMt p) (ht : p.tree_height = 5) (h5 : 5 ≤ p.d) (hd100 : p.d ≤ 100) (hH : ∀ x, (H x).length = p.n)
    {skSeed pubSeed : Bytes} {x : Option Bytes} {idx : Nat} (hidx : idx = 2 ^ 20 + 2 ^ 18 - 1) {states : List BdsState} {sigs : List Bytes}
    (m : MixInv H p skSeed pubSeed x idx states sigs) {oa : Addr} (ho : oa.a3 = UInt32.ofNat 0) :
    mtTraverse H p skSeed pubSeed idx states sigs oa = none := by
  obtain ⟨A, c, m⟩ := m
  have hins := f.insts
  have hth := f.good.th_lt
  obtain ⟨states', c', e1, hl', hin, hlay, -⟩ := nextZero_eq f hH (mixQ_zero idx) m
  have li := loopStart (addr := setTreeAddr Addr.zero ((idx >>> p.tree_height) + 1)) ho hl' m.sigs_len hlay
  obtain ⟨v, A', c'', upd, e2, li', hA, -⟩ := mtLoop_eq (H := H) (skSeed := skSeed) (pubSeed := pubSeed) (by omega) f.d_lt 3 0 A c' _ (by omega) li
    (fun j _ hj => mix_step f ht h5 hd100 hH (by omega) m.plan hin (by omega) (Or.inr (by omega)))
  rw [Nat.zero_add] at li'
  obtain ⟨cur, hcur, hq⟩ := li'.layer 3 (by omega)
  rw [if_neg (by omega), MixQ, if_pos ⟨rfl, by omega⟩] at hq
  have hB : B p.tree_height 3 ∣ idx + 1 := by rw [ht, hidx]; decide
  have hnd : ¬ B p.tree_height (3 + 1) ∣ idx + 1 := by rw [ht]; exact not_dvd_bad (by omega) (by omega)
  have hupd : v.updates = 2 ^ 32 - 1 := by rw [li'.upd hB, hins, ht]; decide
  obtain ⟨s1, r1, r2⟩ := bad_overflow f ht hH (skSeed := skSeed) (pubSeed := pubSeed) (a0 := setTreeAddr (setLayerAddr v.addr 3) (idx / B p.tree_height (3 + 1)))
    hidx (isSub_layer _ _ _) hq.1
  rw [mtTraverse]
  simp only [Option.bind_eq_bind] at e1 ⊢
  rw [e1]
  simp only [Option.bind_some]
  rw [show p.d = 3 + ((p.d - 4) + 1) by omega, mtLoop_add, e2, Option.bind_some, Nat.zero_add, mtLoop]
  have : mtStep H p skSeed pubSeed idx 3 v = none := by
    rw [mtStep, if_pos (by rw [mask_dvd]; exact hnd), mtStepInner]
    simp only [Option.bind_eq_bind]
    rw [leafAt_code, treeAt_code, hcur]
    simp only [Option.bind_some]
    rw [if_pos (li'.swap_iff.mpr hB).symm, ht, ← ht, ht] 
    rw [ht] at r1
    rw [ht] at r2
    rw [r1]
    simp only [Option.bind_some]
    rw [hupd, r2]
    rfl
  rw [this]
  rfl

end Xmss
