import Verif.Proof.MtStep
/-
One signature of the multi-tree traversal: all layers stay in good order as long as the index is below 2^(h(u+2)).
-/
namespace Xmss
open Sched

variable {H : Bytes → Bytes} {p : Params}

/-- All layers satisfy `Q` before signature `idx`, with progress counters `A` and `c`. -/
structure MtInvQ (p : Params) (Q : LayerPred) (idx : Nat) (states : List BdsState) (sigs : List Bytes)
    (A : Nat → Nat → Nat) (c : Nat → Nat) : Prop where
  states_len : states.length = 2 * p.d - 1
  sigs_len : sigs.length = p.d - 1
  layer : ∀ k < p.d, ∃ cur, states[k]? = some cur ∧ Q k idx (A k) (c k) cur states[p.d + k]? sigs[k]?
  plan : Plan p.tree_height (p.insts / 2) p.d idx A c

/-- All layers are in good order before signature `idx`, with progress counters `A` and `c`. -/
abbrev MtInvAt (H : Bytes → Bytes) (p : Params) (skSeed pubSeed : Bytes) (z : Nat → Option Bytes) (idx : Nat) (states : List BdsState) (sigs : List Bytes)
    (A : Nat → Nat → Nat) (c : Nat → Nat) : Prop := MtInvQ p (GoodLayer H p skSeed pubSeed z) idx states sigs A c

/-- All layers are in good order before signature `idx`. -/
def MtInv (H : Bytes → Bytes) (p : Params) (skSeed pubSeed : Bytes) (z : Nat → Option Bytes) (idx : Nat) (states : List BdsState) (sigs : List Bytes) : Prop :=
  ∃ A c, MtInvAt H p skSeed pubSeed z idx states sigs A c

theorem LoopSteps.upd_le_all {h u d idx : Nat} {pr pr' : Nat → Nat → Nat} {nl nlIn nl' upd : Nat → Nat}
    (L : LoopSteps h u d idx pr pr' nl nlIn nl' upd) (hu : u < 128) (hB : ¬ B h (u + 1) ∣ idx + 1) :
    ∀ i, i ≤ d → upd i ≤ u := by
  intro i
  induction i with
  | zero => intro _; exact le_of_eq L.start
  | succ i ih =>
    intro hi
    by_cases h1 : i + 1 ≤ u
    · exact L.upd_le hu _ h1 hi
    · obtain ⟨n, q, _, _, _, hn, _, hc⟩ := L.inner (i := i) (by omega) (not_dvd_up (by omega) hB)
      have := ih (by omega)
      have e : charToUnsigned (upd i - n) = upd i - n := charToUnsigned_eq (by omega)
      rw [e] at hc
      omega

/-- The leaf that the next tree of layer 0 gets before the loop. -/
theorem nextZero_eq (f : FastMt p) (hH : ∀ x, (H x).length = p.n) {skSeed pubSeed : Bytes} {z : Nat → Option Bytes} {idx : Nat} {states : List BdsState}
    {sigs : List Bytes} {A : Nat → Nat → Nat} {c : Nat → Nat} {Q : LayerPred} (hQ0 : Q 0 idx = GoodLayer H p skSeed pubSeed z 0 idx)
    (m : MtInvQ p Q idx states sigs A c) :
    ∃ states' c', (if (1 + idx >>> p.tree_height) * (1 <<< p.tree_height) + (idx &&& ((1 <<< p.tree_height) - 1)) < 2 ^ p.full_height then do
      let next ← states[p.d]?
      let next ← bdsStateUpdate H p next skSeed pubSeed (setTreeAddr Addr.zero ((idx >>> p.tree_height) + 1))
      some (states.set p.d next)
    else some states : Option (List BdsState)) = some states' ∧ states'.length = 2 * p.d - 1 ∧
      NlIn p.tree_height p.d idx c c' ∧
      (∀ k < p.d, ∃ cur, states'[k]? = some cur ∧ Q k idx (A k) (c' k) cur states'[p.d + k]? sigs[k]?) ∧
      totalLeaves states ≤ totalLeaves states' ∧ totalLeaves states' ≤ totalLeaves states + 1 ∧
      (HasNext p.tree_height p.d idx 0 → totalLeaves states' = totalLeaves states + 1) := by
  have g := f.good
  have hd2 := f.d
  have hlen := m.states_len
  have hdl : p.d < states.length := by omega
  have e1 : idx >>> p.tree_height = idx / B p.tree_height (0 + 1) := by
    have := treeAt_code (p := p) idx 0
    rwa [Nat.zero_add, mul_one] at this
  have e2 : idx &&& ((1 <<< p.tree_height) - 1) = leafAt p.tree_height idx 0 := by
    have := leafAt_code (p := p) idx 0
    rwa [mul_zero, Nat.shiftRight_zero] at this
  have hcode := hasNext_code g (idx := idx) (i := 0) (by omega)
  rw [mul_zero, Nat.sub_zero] at hcode
  rw [e1, e2]
  by_cases hx : HasNext p.tree_height p.d idx 0
  · rw [if_pos (hcode.mpr hx)]
    obtain ⟨cur, hcur, hgood⟩ := m.layer 0 (by omega)
    rw [hQ0] at hgood
    obtain ⟨ti, hnext⟩ := hgood
    obtain ⟨nx, hnx, hnl, hcle, bi, hz, hsig⟩ := hnext (by omega)
    rw [Nat.add_zero] at hnx
    have ctx' := treeCtx_suite g hH skSeed pubSeed 0 (idx / B p.tree_height (0 + 1) + 1)
    obtain ⟨nx', e3, b3, n3, l3, fr3⟩ := bdsStateUpdate_eq ctx' g.th_lt (by have := f.th; omega) (by rw [f.k]; omega)
      (addr := setTreeAddr Addr.zero (idx / B p.tree_height (0 + 1) + 1)) ⟨rfl, rfl, rfl⟩ (s := nx)
      (by rw [hnl]; exact bi) (by rw [hnl]; exact hcle)
    have hts := totalLeaves_set (y := nx') hnx
    have hlt : c 0 < 2 ^ p.tree_height := by
      rw [m.plan.nl0 (by omega) hx]; exact leaf_lt _ _ _
    rw [if_neg (by rw [hnl]; omega)] at l3
    refine ⟨states.set p.d nx', fun k => if k = 0 then min (c 0 + 1) (2 ^ p.tree_height) else c k, ?_, ?_, ?_, ?_, by omega, by omega, fun _ => by omega⟩
    · rw [hnx]
      simp only [Option.bind_eq_bind, Option.bind_some]
      rw [e3]
      rfl
    · rw [List.length_set]; exact hlen
    · refine ⟨fun _ => by simp, fun h => absurd hx h, fun i hi => by simp; omega⟩
    · intro k hk
      by_cases hk0 : k = 0
      · subst hk0
        refine ⟨cur, by rw [List.getElem?_set_ne (by omega)]; exact hcur, ?_⟩
        rw [hQ0]
        refine ⟨ti, fun _ => ⟨nx', ?_, ?_, ?_, ?_, ?_, hsig⟩⟩
        · rw [Nat.add_zero, List.getElem?_set_self hdl]
        · simp only [if_true]; rw [n3, hnl]
        · simp only [if_true]; omega
        · rw [n3, hnl] at b3; simp only [if_true]; exact b3
        · intro x hx' hlt'
          simp only [if_true] at hlt'
          rw [fr3 (by rw [n3, hnl]; exact hlt')]
          exact hz x hx' hlt
      · obtain ⟨ck, h1, h2⟩ := m.layer k hk
        refine ⟨ck, by rw [List.getElem?_set_ne (by omega)]; exact h1, ?_⟩
        simp only [if_neg hk0]
        rw [List.getElem?_set_ne (by omega)]
        exact h2
  · rw [if_neg (fun h => hx (hcode.mp h))]
    exact ⟨states, c, rfl, hlen, ⟨fun h => absurd h hx, fun _ => rfl, fun _ _ => rfl⟩, m.layer, Nat.le_refl _, by omega, fun h => absurd h hx⟩

/-- The state of the loop at its beginning. -/
theorem loopStart {Q : LayerPred} {idx : Nat} {states : List BdsState} {sigs : List Bytes} {A : Nat → Nat → Nat} {c : Nat → Nat}
    {addr oa : Addr} (ho : oa.a3 = UInt32.ofNat 0) (hl : states.length = 2 * p.d - 1) (hs : sigs.length = p.d - 1)
    (hlay : ∀ k < p.d, ∃ cur, states[k]? = some cur ∧ Q k idx (A k) (c k) cur states[p.d + k]? sigs[k]?) :
    LoopInv p Q idx 0 A c { states := states, sigs := sigs, updates := p.insts >>> 1, swap := 0, addr := addr, otsAddr := oa } := by
  refine ⟨hl, hs, Nat.le_refl _, ?_, ho, ?_, ?_⟩
  · simp only [true_iff, B_zero]; exact one_dvd _
  · intro _
    simp only [wrapUpd, Nat.shiftRight_one, Nat.zero_le, if_true, Nat.sub_zero]
  · intro k hk
    rw [if_neg (by omega)]
    exact hlay k hk

theorem FastMt.d_lt (f : FastMt p) : p.d < 2 ^ 31 := by
  have g := f.good
  have hh := f.th
  have h1 : 1 * p.d ≤ p.tree_height * p.d := Nat.mul_le_mul_right _ (by omega)
  have h2 := g.height
  have h3 := g.fh_lt
  omega

/-- The whole traversal for one signature, when each layer is handled. -/
theorem mtTraverse_gen (f : FastMt p) (hH : ∀ x, (H x).length = p.n) {skSeed pubSeed : Bytes} {z : Nat → Option Bytes} {idx : Nat} {states : List BdsState}
    {sigs : List Bytes} {A : Nat → Nat → Nat} {c : Nat → Nat} {Q : LayerPred} (hQ0 : Q 0 idx = GoodLayer H p skSeed pubSeed z 0 idx)
    (m : MtInvQ p Q idx states sigs A c)
    (hst : ∀ c', NlIn p.tree_height p.d idx c c' → ∀ j < p.d, StepOk H p skSeed pubSeed Q idx j (A j) (c' j))
    {oa : Addr} (ho : oa.a3 = UInt32.ofNat 0) :
    ∃ v A' c', mtTraverse H p skSeed pubSeed idx states sigs oa = some v ∧ MtInvQ p Q (idx + 1) v.states v.sigs A' c' := by
  have hins := f.insts
  have hth := f.good.th_lt
  have hd2 := f.d
  obtain ⟨states', c', e1, hl', hin, hlay, -⟩ := nextZero_eq f hH hQ0 m
  have li := loopStart (addr := setTreeAddr Addr.zero ((idx >>> p.tree_height) + 1)) ho hl' m.sigs_len hlay
  obtain ⟨v', A', c'', upd, e2, li', hA, hu0, hud', hst', -⟩ := mtLoop_eq (by omega) f.d_lt p.d 0 A c' _ (by omega) li
    (fun j _ hj => hst c' hin j (by omega))
  rw [Nat.zero_add] at li' hud'
  simp only [Nat.zero_add] at hst'
  have hup0 : upd 0 = p.insts / 2 := by rw [hu0]; simp only [Nat.shiftRight_eq_div_pow, pow_one]
  have L : LoopSteps p.tree_height (p.insts / 2) p.d idx A A' c c' c'' upd := ⟨hup0, hin, fun i hi => hst' i (Nat.zero_le _) hi⟩
  have hplan := L.plan m.plan f.th hth (by rw [hins]) (by omega) f.d_lt
  refine ⟨v', A', c'', ?_, li'.states_len, li'.sigs_len, ?_, hplan⟩
  · rw [mtTraverse]
    simp only [Option.bind_eq_bind] at e1 ⊢
    rw [e1]
    simp only [Option.bind_some]
    exact e2
  · intro k hk
    obtain ⟨cur, h1, h2⟩ := li'.layer k hk
    rw [if_pos hk] at h2
    exact ⟨cur, h1, h2⟩

/-- The whole traversal for one signature. -/
theorem mtTraverse_eq (f : FastMt p) (hH : ∀ x, (H x).length = p.n) {skSeed pubSeed : Bytes} {z : Nat → Option Bytes} {idx : Nat} {states : List BdsState}
    {sigs : List Bytes} (m : MtInv H p skSeed pubSeed z idx states sigs) (hlast : idx + 1 < 2 ^ p.full_height)
    (htop : idx + 1 < B p.tree_height (p.insts / 2 + 2)) (hz : ∀ i ≤ p.insts / 2, z i = none) {oa : Addr} (ho : oa.a3 = UInt32.ofNat 0) :
    ∃ v, mtTraverse H p skSeed pubSeed idx states sigs oa = some v ∧ MtInv H p skSeed pubSeed z (idx + 1) v.states v.sigs ∧
      (¬ B p.tree_height (p.insts / 2 + 1) ∣ idx + 1 → totalLeaves v.states ≤ totalLeaves states + p.insts / 2 + 2) ∧
      (∀ j, 0 < j → j < p.d → B p.tree_height j ∣ idx + 1 → p.insts / 2 < j →
        ∃ A, AllDone p.tree_height A ∧ totalLeaves states +
          remWork p.tree_height (restart p.tree_height p.tree_height (leafAt p.tree_height idx j + 1) A) + 1 +
          (if p.tree_height ≤ 5 ∧ p.d ≤ 100 ∧ j = p.insts / 2 + 1 then p.d - 1 - j else 0) ≤ totalLeaves v.states) ∧
      (B p.tree_height (p.insts / 2 + 1) ∣ idx + 1 →
        totalLeaves v.states ≤ totalLeaves states + 2 ^ (p.tree_height - 2) + (p.d - 2 - p.insts / 2)) := by
  obtain ⟨A, c, m⟩ := m
  have g := f.good
  have hh := f.th
  have hh' := g.th_lt
  have hins := f.insts
  have hd2 := f.d
  have hBd : B p.tree_height p.d = 2 ^ p.full_height := by rw [B, g.height]
  obtain ⟨states', c', e1, hl', hin, hlay, ht1, ht2, ht3⟩ := nextZero_eq f hH rfl m
  have hu : p.insts / 2 = p.tree_height / 2 := by rw [hins]
  set u := p.insts / 2 with hud
  set h := p.tree_height with hhd
  obtain ⟨v0, hv0⟩ : ∃ v0 : MtLocals, v0 = { states := states', sigs := sigs, updates := p.insts >>> 1, swap := 0, addr := setTreeAddr Addr.zero ((idx >>> h) + 1), otsAddr := oa } := ⟨_, rfl⟩
  have hd31 : p.d < 2 ^ 31 := by
    have h1 : 1 * p.d ≤ p.tree_height * p.d := Nat.mul_le_mul_right _ (by omega)
    have h2 := g.height
    have h3 := g.fh_lt
    omega
  have li : LoopInv p (GoodLayer H p skSeed pubSeed z) idx 0 A c' v0 := by
    rw [hv0]
    refine ⟨hl', m.sigs_len, Nat.le_refl _, ?_, ho, ?_, ?_⟩
    · simp only [true_iff, B_zero]; exact one_dvd _
    · intro _
      simp only [wrapUpd, Nat.shiftRight_one, Nat.zero_le, if_true, Nat.sub_zero]
    · intro k hk
      rw [if_neg (by omega)]
      exact hlay k hk
  obtain ⟨v', A', c'', upd, e2, li', hA, hu0, hud', hst, hw⟩ := mtLoop_eq (by omega) hd31 p.d 0 A c' v0 (by omega) li (by
    intro j _ hj
    rw [Nat.zero_add] at hj
    by_cases hB : B h (j + 1) ∣ idx + 1
    · have hju : j ≤ u := by
        by_contra hc
        have h1 : B h (u + 2) ∣ idx + 1 := (B_dvd (by omega)).trans hB
        have := Nat.le_of_dvd (by omega) h1
        omega
      rw [m.plan.ready hin hj (by rw [hBd]; exact hlast) hju hB]
      exact mtStepSwap_eq f hH hlast hB (hz j hju)
    · apply mtStepInner_eq f hH hj hB
      intro hBj k hk hdv
      by_cases hj0 : j = 0
      · subst hj0
        exact done_at_deadline (m.plan.nested 0 hj) m.plan.inTime0 hk hdv
      · exact m.plan.done hh hu (by omega) hj hBj k hk)
  rw [Nat.zero_add] at li' hud' hw
  simp only [Nat.zero_add] at hst
  have hup0 : upd 0 = u := by rw [hu0, hv0]; simp only [Nat.shiftRight_eq_div_pow, pow_one]; rfl
  have L : LoopSteps h u p.d idx A A' c c' c'' upd := ⟨hup0, hin, fun i hi => hst i (Nat.zero_le _) hi⟩
  have hplan := L.plan m.plan hh hh' hu (by omega) hd31
  have hvs : totalLeaves v0.states = totalLeaves states' := by rw [hv0]
  have hvu : v0.updates = u := by rw [← hu0, hup0]
  refine ⟨v', ?_, ⟨A', c'', li'.states_len, li'.sigs_len, ?_, hplan⟩, ?_, ?_, ?_⟩
  · rw [mtTraverse]
    simp only [Option.bind_eq_bind] at e1 ⊢
    rw [← hhd, e1]
    simp only [Option.bind_some]
    rw [← hv0]
    exact e2
  · intro k hk
    obtain ⟨cur, h1, h2⟩ := li'.layer k hk
    rw [if_pos hk] at h2
    exact ⟨cur, h1, h2⟩
  · intro hB
    have h1 := hw.le (by
      intro j _ hj
      have h1 := LoopSteps.upd_le_all L (by omega) hB j (by omega)
      refine ⟨by omega, fun h2 => ?_⟩
      have hju : j + 1 ≤ u := by
        by_contra hc
        exact hB ((B_dvd (by omega)).trans h2)
      rw [L.upd_swap (by omega) j (by omega) (by omega) ((B_dvd (by omega)).trans h2)]
      omega)
    rw [hvs, hvu] at h1
    split at h1 <;> omega
  · intro j hj0 hj hB huj
    have hnB : ¬ B h (j + 1) ∣ idx + 1 := fun hc => by
      have h1 : B h (u + 2) ∣ idx + 1 := (B_dvd (by omega)).trans hc
      have := Nat.le_of_dvd (by omega) h1
      omega
    have h1 := hw.ge j (by omega) hj hnB hB
    have hx := hasNext_swap (h := h) (d := p.d) (idx := idx) (i := 0) (by omega) (by rw [hBd]; exact hlast) ((B_dvd (by omega)).trans hB)
    refine ⟨A j, m.plan.done hh hu hj0 hj hB, ?_⟩
    rw [hplan.remTop j huj hj, hvs, ht3 hx] at h1
    rw [← hhd] at h1
    split
    · rename_i hc
      obtain ⟨hc1, hc2, rfl⟩ := hc
      have hsum : ∑ k ∈ Finset.Ico (u + 1) (p.d - 1), 1 ≤ ∑ k ∈ Finset.Ico (u + 1) p.d, (c'' k - c' k) := by
        calc ∑ k ∈ Finset.Ico (u + 1) (p.d - 1), 1 ≤ ∑ k ∈ Finset.Ico (u + 1) (p.d - 1), (c'' k - c' k) := by
              apply Finset.sum_le_sum
              intro k hk
              rw [Finset.mem_Ico] at hk
              have a1 := m.plan.nlTop (lt_trans (Nat.lt_succ_self _) htop) hc1 hc2 k hk.1 (by omega)
              have a2 := hplan.nlTop htop hc1 hc2 k hk.1 (by omega)
              rw [hin.2.2 k (by omega), a2, a1, Nat.succ_div_of_dvd hB]
              exact le_of_eq (Nat.add_sub_cancel_left (n := idx / B h (u + 1)) (m := 1)).symm
          _ ≤ _ := Finset.sum_le_sum_of_subset (by
              intro k hk
              rw [Finset.mem_Ico] at hk ⊢
              omega)
      rw [Finset.sum_const, Nat.card_Ico, Nat.nsmul_eq_mul, mul_one] at hsum
      omega
    · omega
  · intro hB
    have h1 := hw.up
    have hud1 : u + 1 < p.d := by
      by_contra hc
      have h2 : B h p.d ∣ idx + 1 := (B_dvd (by omega)).trans hB
      have := Nat.le_of_dvd (by omega) h2
      rw [hBd] at this
      omega
    have hnB : ¬ B h (u + 2) ∣ idx + 1 := fun hc => by
      have := Nat.le_of_dvd (by omega) hc
      omega
    have hS : maxWork h p.d idx (u + 1) (A (u + 1)) ≤ (2 ^ (h - 2) - 1) + (if u + 2 < p.d then 1 else 0) := by
      unfold maxWork
      rw [if_neg hnB, if_pos hB]
      have hr : remWork h (A (u + 1)) = 0 := remWork_eq_zero (m.plan.done hh hu (by omega) hud1 hB)
      have hp2 := (pow_split hh).2.2
      apply Nat.add_le_add_right
      by_cases he : leafAt h idx (u + 1) % 2 = 0
      · rw [if_pos he, restart_odd (by omega), hr]
        omega
      · rw [if_neg he]
        have h2 := remWork_restart (h := h) (t := leafAt h idx (u + 1) + 1) (by omega) (by omega) (A (u + 1))
        have h3 := S_le h (leafAt h idx (u + 1) + 1)
        omega
    have hlow : ∑ k ∈ Finset.Ico 0 (u + 1), maxWork h p.d idx k (A k) = 0 := by
      apply Finset.sum_eq_zero
      intro k hk
      rw [Finset.mem_Ico] at hk
      unfold maxWork
      rw [if_pos ((B_dvd (by omega)).trans hB)]
    have hhigh : ∑ k ∈ Finset.Ico (u + 2) p.d, maxWork h p.d idx k (A k) ≤ p.d - 1 - (u + 2) := by
      calc ∑ k ∈ Finset.Ico (u + 2) p.d, maxWork h p.d idx k (A k) ≤ ∑ k ∈ Finset.Ico (u + 2) p.d, (if k + 1 < p.d then 1 else 0) := by
            apply Finset.sum_le_sum
            intro k hk
            rw [Finset.mem_Ico] at hk
            unfold maxWork
            rw [if_neg (not_dvd_up (by omega) hnB), if_neg (not_dvd_up (by omega) hnB), m.plan.remTop k (by omega) hk.2, Nat.zero_add]
        _ = p.d - 1 - (u + 2) := by
            rw [Finset.sum_ite, Finset.sum_const_zero, Nat.add_zero, Finset.sum_const, Nat.nsmul_eq_mul, mul_one]
            rw [show (Finset.Ico (u + 2) p.d).filter (fun k => k + 1 < p.d) = Finset.Ico (u + 2) (p.d - 1) by
              ext k; simp only [Finset.mem_filter, Finset.mem_Ico]; omega]
            rw [Nat.card_Ico]
    have hsum : ∑ k ∈ Finset.Ico 0 p.d, maxWork h p.d idx k (A k) = (∑ k ∈ Finset.Ico 0 (u + 1), maxWork h p.d idx k (A k)) +
        (maxWork h p.d idx (u + 1) (A (u + 1)) + ∑ k ∈ Finset.Ico (u + 2) p.d, maxWork h p.d idx k (A k)) := by
      rw [← Finset.sum_Ico_consecutive _ (Nat.zero_le (u + 1)) (by omega : u + 1 ≤ p.d),
        Finset.sum_eq_sum_Ico_succ_bot (by omega : u + 1 < p.d)]
    rw [← hhd] at h1
    rw [hsum, hlow, hvs] at h1
    have hp2 := (pow_split hh).2.2
    split at hS <;> omega

end Xmss
