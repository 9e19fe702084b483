import Verif.Proof.MtSched
import Verif.Proof.FastBody
import Verif.Proof.FastXmss
/-
The loop of the multi-tree traversal (xmss_core_fast.c:929-979), layer by layer.
-/
namespace Xmss
open Sched

variable {H : Bytes → Bytes} {p : Params}

/-- Parameters for which the multi-tree traversal is analysed: those of the registered sets (`bds_k = 0`). -/
structure FastMt (p : Params) : Prop where
  good : p.Good
  d : 2 ≤ p.d
  th : 4 ≤ p.tree_height
  k : p.bds_k = 0
  sk : p.sk_bytes = fastSkBytes p

theorem FastMt.insts (f : FastMt p) : p.insts = p.tree_height := by unfold Params.insts; rw [f.k]; omega

/-- What the state of a layer is at time `t`; `A` are the progress counters, `c` is the number of leaves of the next tree. -/
abbrev LayerPred := Nat → Nat → (Nat → Nat) → Nat → BdsState → Option BdsState → Option Bytes → Prop

/-- Updates left before layer `i` if all layers below change their tree. -/
def wrapUpd (u i : Nat) : Nat := if i ≤ u then u - i else 2 ^ 32 + u - i

theorem wrapUpd_succ {u i : Nat} (hu : u < 128) (hi : i < 2 ^ 31) : (wrapUpd u i + 2 ^ 32 - 1) % 2 ^ 32 = wrapUpd u (i + 1) := by
  unfold wrapUpd
  split <;> split <;> omega

/-- State of the loop before layer `i`. -/
structure LoopInv (p : Params) (Q : LayerPred) (idx i : Nat) (A : Nat → Nat → Nat) (c : Nat → Nat) (v : MtLocals) : Prop where
  states_len : v.states.length = 2 * p.d - 1
  sigs_len : v.sigs.length = p.d - 1
  swap_le : v.swap ≤ i
  swap_iff : v.swap = i ↔ B p.tree_height i ∣ idx + 1
  ots : v.otsAddr.a3 = UInt32.ofNat 0
  upd : B p.tree_height i ∣ idx + 1 → v.updates = wrapUpd (p.insts / 2) i
  layer : ∀ k < p.d, ∃ cur, v.states[k]? = some cur ∧
    Q k (if k < i then idx + 1 else idx) (A k) (c k) cur v.states[p.d + k]? v.sigs[k]?

/-- The most leaves layer `i` can compute in one signature, if the treehash instances may finish all their work. -/
def maxWork (h d idx i : Nat) (A : Nat → Nat) : Nat :=
  if B h (i + 1) ∣ idx + 1 then 0
  else (if B h i ∣ idx + 1 then
      remWork h (restart h h (leafAt h idx i + 1) A) + (if leafAt h idx i % 2 = 0 then 1 else 0) else remWork h A) +
    (if i + 1 < d then 1 else 0)

/-- Ghost count of leaves over one layer. -/
structure WorkStep (h d idx i : Nat) (A A' : Nat → Nat) (c c' : Nat) (v v' : MtLocals) : Prop where
  le : v.updates < 128 → (B h (i + 1) ∣ idx + 1 → 0 < v.updates) →
    totalLeaves v'.states + v'.updates ≤ totalLeaves v.states + v.updates + (if v.swap = i ∧ v'.swap = i then 1 else 0)
  mono : totalLeaves v.states ≤ totalLeaves v'.states
  ge : ¬ B h (i + 1) ∣ idx + 1 → B h i ∣ idx + 1 →
    totalLeaves v.states + remWork h (restart h h (leafAt h idx i + 1) A) + (c' - c) ≤ totalLeaves v'.states + remWork h A'
  grow : ¬ B h (i + 1) ∣ idx + 1 → totalLeaves v.states + (c' - c) ≤ totalLeaves v'.states
  up : totalLeaves v'.states ≤ totalLeaves v.states + maxWork h d idx i A

/-- The loop body does the right thing for layer `i`. -/
def StepOk (H : Bytes → Bytes) (p : Params) (skSeed pubSeed : Bytes) (Q : LayerPred) (idx i : Nat) (A : Nat → Nat) (c : Nat) : Prop :=
  ∀ (v : MtLocals) (cur : BdsState), v.states.length = 2 * p.d - 1 → v.sigs.length = p.d - 1 → v.swap ≤ i →
    (v.swap = i ↔ B p.tree_height i ∣ idx + 1) → v.otsAddr.a3 = UInt32.ofNat 0 →
    (B p.tree_height i ∣ idx + 1 → v.updates = wrapUpd (p.insts / 2) i) → v.states[i]? = some cur →
    Q i idx A c cur v.states[p.d + i]? v.sigs[i]? →
    ∃ v' A' c' cur', mtStep H p skSeed pubSeed idx i v = some v' ∧ v'.states.length = v.states.length ∧
      v'.sigs.length = v.sigs.length ∧
      v'.swap = (if B p.tree_height (i + 1) ∣ idx + 1 then i + 1 else v.swap) ∧ v'.otsAddr.a3 = UInt32.ofNat 0 ∧
      v'.states[i]? = some cur' ∧ Q i (idx + 1) A' c' cur' v'.states[p.d + i]? v'.sigs[i]? ∧
      (∀ j, j ≠ i → j ≠ p.d + i → v'.states[j]? = v.states[j]?) ∧ (∀ j, j ≠ i → v'.sigs[j]? = v.sigs[j]?) ∧
      LayerStep p.tree_height p.d idx i v.updates v'.updates A A' c c' ∧
      WorkStep p.tree_height p.d idx i A A' c c' v v'

/-- Work of several layers. -/
structure WorkLoop (h d idx i e : Nat) (A A' : Nat → Nat → Nat) (c c' upd : Nat → Nat) (v v' : MtLocals) : Prop where
  le : (∀ j, i ≤ j → j < e → upd j < 128 ∧ (B h (j + 1) ∣ idx + 1 → 0 < upd j)) →
    totalLeaves v'.states + v'.updates ≤ totalLeaves v.states + v.updates + (if v.swap = i ∧ v'.swap < e then 1 else 0)
  mono : totalLeaves v.states ≤ totalLeaves v'.states
  ge : ∀ j, i ≤ j → j < e → ¬ B h (j + 1) ∣ idx + 1 → B h j ∣ idx + 1 →
    totalLeaves v.states + remWork h (restart h h (leafAt h idx j + 1) (A j)) + ∑ k ∈ Finset.Ico j e, (c' k - c k) ≤
      totalLeaves v'.states + remWork h (A' j)
  grow : ¬ B h (i + 1) ∣ idx + 1 → totalLeaves v.states + ∑ k ∈ Finset.Ico i e, (c' k - c k) ≤ totalLeaves v'.states
  up : totalLeaves v'.states ≤ totalLeaves v.states + ∑ k ∈ Finset.Ico i e, maxWork h d idx k (A k)

theorem mtLoop_eq {skSeed pubSeed : Bytes} {Q : LayerPred} {idx : Nat} (hu128 : p.insts / 2 < 128) (hd31 : p.d < 2 ^ 31) :
    ∀ (k i : Nat) (A : Nat → Nat → Nat) (c : Nat → Nat) (v : MtLocals), i + k ≤ p.d → LoopInv p Q idx i A c v →
      (∀ j, i ≤ j → j < i + k → StepOk H p skSeed pubSeed Q idx j (A j) (c j)) →
      ∃ v' A' c' upd, mtLoop H p skSeed pubSeed idx k i v = some v' ∧ LoopInv p Q idx (i + k) A' c' v' ∧
        (∀ j, (j < i ∨ i + k ≤ j) → A' j = A j ∧ c' j = c j) ∧ upd i = v.updates ∧ upd (i + k) = v'.updates ∧
        (∀ j, i ≤ j → j < i + k → LayerStep p.tree_height p.d idx j (upd j) (upd (j + 1)) (A j) (A' j) (c j) (c' j)) ∧
        WorkLoop p.tree_height p.d idx i (i + k) A A' c c' upd v v' := by
  intro k
  induction k with
  | zero =>
    intro i A c v _ li _
    refine ⟨v, A, c, fun _ => v.updates, rfl, li, fun _ _ => ⟨rfl, rfl⟩, rfl, rfl, fun j h1 h2 => by omega,
      ⟨fun _ => by omega, Nat.le_refl _, fun j h1 h2 => by omega, fun _ => by simp, by simp⟩⟩
  | succ k ih =>
    intro i A c v hk li hs
    obtain ⟨cur, hcur, hq⟩ := li.layer i (by omega)
    rw [if_neg (by omega)] at hq
    obtain ⟨v1, A1, c1, cur1, e1, l1, l2, sw1, o1, hc1, q1, fr1, fr2, ls1, ws1⟩ :=
      hs i (Nat.le_refl _) (by omega) v cur li.states_len li.sigs_len li.swap_le li.swap_iff li.ots li.upd hcur hq
    have hsle := li.swap_le
    have hsiff := li.swap_iff
    have li1 : LoopInv p Q idx (i + 1) (fun j => if j = i then A1 else A j) (fun j => if j = i then c1 else c j) v1 := by
      refine ⟨l1.trans li.states_len, l2.trans li.sigs_len, ?_, ?_, o1, ?_, ?_⟩
      · rw [sw1]; split <;> omega
      · rw [sw1]
        split
        · rename_i hB; simp [hB]
        · rename_i hB
          constructor
          · intro h1; omega
          · intro h1; exact absurd h1 hB
      · intro hB
        rcases ls1 with ⟨_, _, _, h1⟩ | ⟨h1, _⟩
        · rw [h1, li.upd ((B_dvd (by omega)).trans hB), wrapUpd_succ hu128 (by omega)]
        · exact absurd hB h1
      · intro j hj
        by_cases hji : j = i
        · subst hji
          rw [if_pos rfl, if_pos (by omega), if_pos rfl]
          exact ⟨cur1, hc1, q1⟩
        · rw [if_neg hji, if_neg hji]
          obtain ⟨cj, h1, h2⟩ := li.layer j hj
          refine ⟨cj, by rw [fr1 j hji (by omega)]; exact h1, ?_⟩
          rw [fr1 (p.d + j) (by omega) (by omega), fr2 j hji]
          have : (j < i + 1) ↔ (j < i) := by omega
          simp only [this]
          exact h2
    obtain ⟨v2, A2, c2, upd, e2, li2, hA, hu1, hu2, hst, hw⟩ := ih (i + 1) _ _ v1 (by omega) li1 (by
      intro j h1 h2
      simp only [show ¬ j = i by omega, if_false]
      exact hs j (by omega) (by omega))
    have hAi := hA i (Or.inl (by omega))
    simp only [if_pos] at hAi
    refine ⟨v2, A2, c2, fun j => if j = i then v.updates else upd j, ?_, ?_, ?_, by simp, ?_, ?_, ?_⟩
    · rw [mtLoop, e1]; exact e2
    · rw [show i + (k + 1) = i + 1 + k by omega]; exact li2
    · intro j hj
      have := hA j (by omega)
      simp only [show ¬ j = i by omega, if_false] at this
      exact this
    · simp only [show ¬ i + (k + 1) = i by omega, if_false]
      rw [show i + (k + 1) = i + 1 + k by omega]; exact hu2
    · intro j h1 h2
      by_cases hji : j = i
      · subst hji
        simp only [if_true, show ¬ j + 1 = j by omega, if_false]
        rw [hu1, hAi.1, hAi.2]
        exact ls1
      · have := hst j (by omega) (by omega)
        simp only [hji, show ¬ j + 1 = i by omega, if_false] at this ⊢
        exact this
    · have hsum : ∀ j, i + 1 ≤ j → ∑ k' ∈ Finset.Ico j (i + 1 + k), (c2 k' - (if k' = i then c1 else c k')) =
          ∑ k' ∈ Finset.Ico j (i + (k + 1)), (c2 k' - c k') := by
        intro j hj
        rw [show i + (k + 1) = i + 1 + k by omega]
        apply Finset.sum_congr rfl
        intro k' hk'
        rw [Finset.mem_Ico] at hk'
        rw [if_neg (by omega)]
      have hsum0 : ∑ k' ∈ Finset.Ico i (i + (k + 1)), (c2 k' - c k') = (c1 - c i) + ∑ k' ∈ Finset.Ico (i + 1) (i + (k + 1)), (c2 k' - c k') := by
        rw [Finset.sum_eq_sum_Ico_succ_bot (by omega), hAi.2]
      have hgrow : ¬ B p.tree_height (i + 1) ∣ idx + 1 → totalLeaves v1.states + ∑ k' ∈ Finset.Ico (i + 1) (i + (k + 1)), (c2 k' - c k') ≤
          totalLeaves v2.states := by
        intro h3
        have := hw.grow (not_dvd_up (by omega) h3)
        rw [hsum _ (Nat.le_refl _)] at this
        exact this
      refine ⟨?_, ws1.mono.trans hw.mono, ?_, ?_, ?_⟩
      · intro hb
        have hb0 := hb i (Nat.le_refl _) (by omega)
        simp only [if_true] at hb0
        have h1 := ws1.le hb0.1 hb0.2
        have h2 := hw.le (by
          intro j h1 h2
          have := hb j (by omega) (by omega)
          simp only [show ¬ j = i by omega, if_false] at this
          exact this)
        have hsw := li2.swap_le
        by_cases hB : B p.tree_height (i + 1) ∣ idx + 1
        · rw [if_pos hB] at sw1
          rw [if_neg (by omega)] at h1
          have hvi : v.swap = i := hsiff.mpr ((B_dvd (by omega)).trans hB)
          rw [show i + (k + 1) = i + 1 + k by omega]
          simp only [sw1, true_and] at h2
          simp only [hvi, true_and]
          omega
        · rw [if_neg hB] at sw1
          rw [if_neg (by omega : ¬ (v1.swap = i + 1 ∧ v2.swap < i + 1 + k))] at h2
          -- the swap counter does not change any more
          have hv2 : v2.swap < i + 1 + k := by
            rcases Nat.lt_or_ge v2.swap (i + 1 + k) with h3 | h3
            · exact h3
            · exact absurd ((B_dvd (by omega)).trans (li2.swap_iff.mp (by omega))) hB
          rw [show i + (k + 1) = i + 1 + k by omega]
          simp only [hv2, and_true]
          have h4 : (v.swap = i ∧ v1.swap = i) ↔ v.swap = i := by rw [sw1]; simp
          simp only [h4] at h1
          omega
      · intro j h1 h2 h3 h4
        by_cases hji : j = i
        · subst hji
          have h5 := ws1.ge h3 h4
          have h6 := hgrow h3
          rw [hAi.1, hsum0]
          omega
        · have h5 := hw.ge j (by omega) (by omega) h3 h4
          rw [hsum j (by omega)] at h5
          simp only [hji, if_false] at h5
          have := ws1.mono
          omega
      · intro h3
        have h5 := ws1.grow h3
        have h6 := hgrow h3
        rw [hsum0]
        omega
      · have h5 := ws1.up
        have h6 := hw.up
        have h7 : ∑ k' ∈ Finset.Ico (i + 1) (i + 1 + k), maxWork p.tree_height p.d idx k' (if k' = i then A1 else A k') =
            ∑ k' ∈ Finset.Ico (i + 1) (i + (k + 1)), maxWork p.tree_height p.d idx k' (A k') := by
          rw [show i + (k + 1) = i + 1 + k by omega]
          apply Finset.sum_congr rfl
          intro k' hk'
          rw [Finset.mem_Ico] at hk'
          rw [if_neg (by omega)]
        rw [h7] at h6
        rw [Finset.sum_eq_sum_Ico_succ_bot (by omega)]
        omega

/-- The loop can be cut. -/
theorem mtLoop_add {skSeed pubSeed : Bytes} {idx : Nat} : ∀ (a b i : Nat) (v : MtLocals),
    mtLoop H p skSeed pubSeed idx (a + b) i v =
      (mtLoop H p skSeed pubSeed idx a i v).bind (mtLoop H p skSeed pubSeed idx b (i + a)) := by
  intro a
  induction a with
  | zero => intro b i v; simp [mtLoop]
  | succ a ih =>
    intro b i v
    rw [show a + 1 + b = a + b + 1 by omega, mtLoop, mtLoop]
    simp only [Option.bind_eq_bind, Option.bind_assoc]
    congr 1
    funext w
    rw [ih, show i + 1 + a = i + (a + 1) by omega]

end Xmss
