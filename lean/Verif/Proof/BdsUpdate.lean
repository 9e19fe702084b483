import Verif.Proof.BdsStack
import Verif.Proof.BdsSched
/-
The invariant of a BDS state, and `bds_treehash_update`.
-/
namespace Xmss
open Sched

variable {H : Bytes → Bytes} {p : Params}

/-- Array sizes and counter ranges of a state. -/
structure Shape (p : Params) (s : BdsState) : Prop where
  stack_len : s.stack.length = p.tree_height + 1
  stack_mem : ∀ x ∈ s.stack, x.length = p.n
  levels_len : s.stacklevels.length = p.tree_height + 1
  levels_mem : ∀ x ∈ s.stacklevels, x < 256
  auth_len : s.auth.length = p.tree_height
  auth_mem : ∀ x ∈ s.auth, x.length = p.n
  keep_len : s.keep.length = p.tree_height / 2
  keep_mem : ∀ x ∈ s.keep, x.length = p.n
  insts_len : s.treehash.length = p.insts
  insts_mem : ∀ t ∈ s.treehash, t.h < 256 ∧ t.nextIdx < 2 ^ 32 ∧ t.stackusage < 256 ∧ t.completed < 256 ∧ t.node.length = p.n
  retain_len : s.retain.length = 2 ^ p.bds_k - p.bds_k - 1
  retain_mem : ∀ x ∈ s.retain, x.length = p.n
  off_lt : s.stackoffset < 2 ^ 32
  next_lt : s.nextLeaf < 2 ^ 32

theorem forall_mem_set {α : Type} {P : α → Prop} {l : List α} {i : Nat} {y : α} (h : ∀ x ∈ l, P x) (hy : P y) :
    ∀ x ∈ l.set i y, P x := by
  intro x hx
  rcases List.mem_or_eq_of_mem_set hx with h1 | h1
  · exact h x h1
  · rw [h1]; exact hy

theorem setA_some {α : Type} {l : List α} {i : Nat} {x : α} (h : i < l.length) : setA l i x = some (l.set i x) := by
  simp [setA, h]

/-- The node that instance `i` provides while the current leaf is `φ`. -/
def target (φ i : Nat) : Nat := 2 * (φ / 2 ^ (i + 1)) + 3

/-- All nodes on the shared stack, top first: the segments of the instances in increasing order. -/
def segs (M : Nat) (seg : Nat → List (Bytes × Nat)) : List (Bytes × Nat) := (List.range M).flatMap seg

/-- Instance `i` with progress `pr i` and stack segment `seg i`. -/
structure InstOk (p : Params) (N : Nat → Nat → Bytes) (φ : Nat) (pr : Nat → Nat) (seg : Nat → List (Bytes × Nat)) (i : Nat)
    (t : TreehashInst) : Prop where
  full : pr i = 2 ^ i → t.completed ≠ 0 ∧ seg i = [] ∧ (target φ i < 2 ^ (p.tree_height - i) → t.node = N i (target φ i))
  part : pr i < 2 ^ i → t.completed = 0 ∧ t.h = i ∧ t.nextIdx = target φ i * 2 ^ i + pr i ∧ t.stackusage = (seg i).length ∧
    IsStk (shiftN N (target φ i * 2 ^ i)) 0 (pr i) (seg i) ∧ target φ i < 2 ^ (p.tree_height - i)

/-- Instances and stack of a state while the current leaf is `φ`.  `base` is what lies on the stack below. -/
structure WorkInv (p : Params) (N : Nat → Nat → Bytes) (base : List (Bytes × Nat)) (φ : Nat) (pr : Nat → Nat)
    (seg : Nat → List (Bytes × Nat)) (s : BdsState) : Prop where
  shape : Shape p s
  inst : ∀ i < p.insts, ∃ t, s.treehash[i]? = some t ∧ InstOk p N φ pr seg i t
  nested : Nested p.insts pr
  stack : Rep s (segs p.insts seg ++ base)
  base_len : base.length ≤ 1
  base_ge : ∀ x ∈ base, p.tree_height ≤ x.2 ∧ x.2 < 256

/-- Segments are binary-counter stacks of the right size. -/
def SegOk (M : Nat) (pr : Nat → Nat) (seg : Nat → List (Bytes × Nat)) : Prop :=
  ∀ i < M, (pr i = 2 ^ i → seg i = []) ∧ (pr i < 2 ^ i → ∃ N, IsStk N 0 (pr i) (seg i))

theorem WorkInv.segOk {N : Nat → Nat → Bytes} {base : List (Bytes × Nat)} {φ : Nat} {pr : Nat → Nat}
    {seg : Nat → List (Bytes × Nat)} {s : BdsState} (w : WorkInv p N base φ pr seg s) : SegOk p.insts pr seg := by
  intro i hi
  obtain ⟨t, _, h⟩ := w.inst i hi
  exact ⟨fun hf => (h.full hf).2.1, fun hp => ⟨_, (h.part hp).2.2.2.2.1⟩⟩

theorem SegOk.nil_of_zero {M : Nat} {pr : Nat → Nat} {seg : Nat → List (Bytes × Nat)} (h : SegOk M pr seg) {i : Nat}
    (hi : i < M) (h0 : pr i = 0) : seg i = [] := by
  obtain ⟨N, hN⟩ := (h i hi).2 (by rw [h0]; exact Nat.two_pow_pos i)
  exact hN.of_zero h0

theorem mem_segs {M : Nat} {seg : Nat → List (Bytes × Nat)} {x : Bytes × Nat} : x ∈ segs M seg ↔ ∃ i < M, x ∈ seg i := by
  simp [segs]

/-- Facts about an element of a segment. -/
theorem SegOk.mem {M : Nat} {pr : Nat → Nat} {seg : Nat → List (Bytes × Nat)} (h : SegOk M pr seg) (hn : Nested M pr) {i : Nat}
    (hi : i < M) {x : Bytes × Nat} (hx : x ∈ seg i) : 0 < pr i ∧ pr i < 2 ^ i ∧ x.2 < i := by
  have hlt : pr i < 2 ^ i := by
    refine lt_of_le_of_ne (hn.le i hi) (fun hf => ?_)
    rw [(h i hi).1 hf] at hx; simp at hx
  have h0 : 0 < pr i := Nat.pos_of_ne_zero (fun h0 => by rw [h.nil_of_zero hi h0] at hx; simp at hx)
  obtain ⟨N, hN⟩ := (h i hi).2 hlt
  have := hN.heights_lt i hlt x hx
  exact ⟨h0, hlt, by omega⟩

theorem SegOk.sorted {M : Nat} {pr : Nat → Nat} {seg : Nat → List (Bytes × Nat)} (h : SegOk M pr seg) (hn : Nested M pr) :
    (segs M seg).Pairwise (fun x y => x.2 < y.2) := by
  unfold segs
  rw [List.flatMap_def, List.pairwise_flatten]
  refine ⟨?_, ?_⟩
  · intro l hl
    simp only [List.mem_map, List.mem_range] at hl
    obtain ⟨i, hi, rfl⟩ := hl
    by_cases hlt : pr i < 2 ^ i
    · obtain ⟨N, hN⟩ := (h i hi).2 hlt
      exact hN.sorted
    · rw [(h i hi).1 (le_antisymm (hn.le i hi) (by omega))]; exact List.Pairwise.nil
  · rw [List.pairwise_map]
    have hr : (List.range M).Pairwise (fun i j => i < j ∧ j < M) := by
      rw [List.pairwise_iff_getElem]
      intro a b ha hb hab
      simp at ha hb ⊢
      omega
    refine hr.imp ?_
    intro i j hij x hx y hy
    have h1 := h.mem hn (i := i) (by omega) hx
    have h2 := h.mem hn (i := j) hij.2 hy
    obtain ⟨N, hN⟩ := (h j hij.2).2 h2.2.1
    have := hN.heights_dvd i (hn.dvd i j hij.1 hij.2 h1.1 h1.2.1 h2.2.1) y hy
    omega

theorem sorted_length {l : List (Bytes × Nat)} : ∀ {a b : Nat}, l.Pairwise (fun x y => x.2 < y.2) →
    (∀ x ∈ l, a ≤ x.2 ∧ x.2 < b) → l.length ≤ b - a := by
  induction l with
  | nil => intros; simp
  | cons x l ih =>
    intro a b hp hx
    rw [List.pairwise_cons] at hp
    have h1 := ih (a := x.2 + 1) (b := b) hp.2 (fun y hy => ⟨hp.1 y hy, (hx y (by simp [hy])).2⟩)
    have h2 := hx x (by simp)
    rw [List.length_cons]
    omega

theorem SegOk.length_le {M : Nat} {pr : Nat → Nat} {seg : Nat → List (Bytes × Nat)} (h : SegOk M pr seg) (hn : Nested M pr) :
    (segs M seg).length ≤ M - 1 := by
  have := sorted_length (a := 0) (b := M - 1) (h.sorted hn) (by
    intro x hx
    obtain ⟨i, hi, hx⟩ := mem_segs.mp hx
    have := h.mem hn hi hx
    omega)
  omega

/-! ### Choosing an instance -/

theorem minHeightLoop_eq {s : BdsState} {L : List (Bytes × Nat)} (hr : Rep s L) :
    ∀ (k i r : Nat), i + k ≤ L.length → (∀ x ∈ L, r ≤ x.2) → minHeightLoop s k i r = some r := by
  intro k
  induction k with
  | zero => intros; rfl
  | succ k ih =>
    intro i r hk hx
    have h1 := hr.levels.get (i := i) (by rw [List.length_map]; omega)
    rw [List.length_map, List.getElem?_map, List.getElem?_eq_getElem (l := L) (i := i) (by omega)] at h1
    rw [minHeightLoop, hr.off, if_neg (by omega), h1]
    simp only [Option.map_some, Option.bind_eq_bind, Option.bind_some]
    have := hx L[i] (List.getElem_mem _)
    rw [if_neg (by omega)]
    exact ih (i + 1) r (by omega) hx

/-- `low` of an instance under way is the height of the topmost node of the stack. -/
theorem minHeight_eq {s : BdsState} {top : Bytes × Nat} {L : List (Bytes × Nat)} (hr : Rep s (top :: L)) {k Hh : Nat} (hk : 0 < k)
    (hkl : k ≤ L.length + 1) (hx : ∀ x ∈ L, top.2 ≤ x.2) (ht : top.2 < Hh) : minHeightLoop s k 0 Hh = some top.2 := by
  obtain ⟨k, rfl⟩ : ∃ k', k = k' + 1 := ⟨k - 1, by omega⟩
  have h1 := hr.levels.get (i := 0) (by simp)
  rw [List.length_map, List.getElem?_map] at h1
  simp at h1
  have hoff : s.stackoffset - 0 - 1 = L.length := by rw [hr.off]; simp
  rw [minHeightLoop, if_neg (by rw [hr.off]; simp), hoff, h1]
  simp only [Option.bind_eq_bind, Option.bind_some]
  rw [if_pos ht]
  refine minHeightLoop_eq hr k 1 _ (by simp; omega) ?_
  intro x hx'
  rcases List.mem_cons.mp hx' with rfl | h
  · exact le_refl _
  · exact hx x h

/-- Outcome of the selection loop over the first `i` instances. -/
def Chosen (M Hh : Nat) (low : Nat → Nat) (i level lmin : Nat) : Prop :=
  (level = M ∧ lmin = Hh ∧ ∀ j < i, Hh ≤ low j) ∨
  (level < i ∧ lmin = low level ∧ low level < Hh ∧ (∀ j < level, low level < low j) ∧ ∀ j, level < j → j < i → low level ≤ low j)

theorem pickLoop_eq {s : BdsState} {low : Nat → Nat} (hlow : ∀ i < p.insts, lowOf p s i = some (low i)) :
    ∀ (k i level lmin : Nat), i + k = p.insts → Chosen p.insts p.tree_height low i level lmin →
      ∃ c lm, pickLoop p s k i level lmin = some c ∧ Chosen p.insts p.tree_height low p.insts c lm := by
  intro k
  induction k with
  | zero =>
    intro i level lmin hk hc
    have : i = p.insts := by omega
    subst this
    exact ⟨level, lmin, rfl, hc⟩
  | succ k ih =>
    intro i level lmin hk hc
    rw [pickLoop, hlow i (by omega)]
    simp only [Option.bind_eq_bind, Option.bind_some]
    by_cases h : low i < lmin
    · rw [if_pos h]
      apply ih _ _ _ (by omega)
      right
      rcases hc with ⟨h1, h2, h3⟩ | ⟨h1, h2, h3, h4, h5⟩
      · exact ⟨by omega, rfl, by omega, fun j hj => by have := h3 j hj; omega, fun j hj hj' => by omega⟩
      · refine ⟨by omega, rfl, by omega, ?_, fun j hj hj' => by omega⟩
        intro j hj
        rcases Nat.lt_trichotomy j level with h6 | h6 | h6
        · have := h4 j h6; omega
        · subst h6; omega
        · have := h5 j h6 hj; omega
    · rw [if_neg h]
      apply ih _ _ _ (by omega)
      rcases hc with ⟨h1, h2, h3⟩ | ⟨h1, h2, h3, h4, h5⟩
      · left
        refine ⟨h1, h2, fun j hj => ?_⟩
        by_cases hji : j = i
        · subst hji; omega
        · exact h3 j (by omega)
      · right
        refine ⟨by omega, h2, h3, h4, fun j hj hj' => ?_⟩
        by_cases hji : j = i
        · subst hji; omega
        · exact h5 j hj (by omega)

/-- Either all instances are finished, or the code picks an instance in the sense of the scheduling argument. -/
theorem pickLevel_eq {N : Nat → Nat → Bytes} {base : List (Bytes × Nat)} {φ : Nat} {pr : Nat → Nat}
    {seg : Nat → List (Bytes × Nat)} {s : BdsState} (w : WorkInv p N base φ pr seg s) :
    (pickLevel p s = some p.insts ∧ ∀ i < p.insts, pr i = 2 ^ i) ∨ ∃ c, pickLevel p s = some c ∧ Pick p.insts pr c := by
  have hso := w.segOk
  have hsorted := hso.sorted w.nested
  have hM : p.insts ≤ p.tree_height := Nat.sub_le _ _
  -- height of the top of the stack
  obtain ⟨t, ht⟩ : ∃ t, t = ((segs p.insts seg).head?.map Prod.snd).getD p.tree_height := ⟨_, rfl⟩
  let low : Nat → Nat := fun i => if pr i = 2 ^ i then p.tree_height else if pr i = 0 then i else t
  have htop : ∀ i < p.insts, 0 < pr i → pr i < 2 ^ i → ∃ x L, segs p.insts seg = x :: L ∧ t = x.2 ∧ t < i ∧
      (seg i).length ≤ L.length + 1 ∧ 0 < (seg i).length ∧ (∀ y ∈ L, x.2 < y.2) := by
    intro i hi h0 h1
    obtain ⟨N', hN'⟩ := (hso i hi).2 h1
    have hne := hN'.ne_nil h0
    obtain ⟨y, hy⟩ := List.exists_mem_of_ne_nil _ hne
    have hmem : y ∈ segs p.insts seg := mem_segs.mpr ⟨i, hi, hy⟩
    have hlen : (seg i).length ≤ (segs p.insts seg).length := by
      unfold segs
      rw [List.flatMap_def]
      apply List.Sublist.length_le
      exact List.sublist_flatten_of_mem (List.mem_map.mpr ⟨i, List.mem_range.mpr hi, rfl⟩)
    cases hs : segs p.insts seg with
    | nil => rw [hs] at hmem; simp at hmem
    | cons x L =>
      rw [hs] at hsorted hmem hlen ht
      simp at ht
      rw [List.pairwise_cons] at hsorted
      refine ⟨x, L, rfl, ht, ?_, by simpa using hlen, List.length_pos_of_ne_nil hne, hsorted.1⟩
      have h2 := (hso.mem w.nested hi hy).2.2
      rcases List.mem_cons.mp hmem with rfl | h3
      · omega
      · have := hsorted.1 y h3; omega
  have hlow : ∀ i < p.insts, lowOf p s i = some (low i) := by
    intro i hi
    obtain ⟨tt, h1, h2⟩ := w.inst i hi
    rw [lowOf, h1]
    simp only [Option.bind_eq_bind, Option.bind_some]
    by_cases hf : pr i = 2 ^ i
    · rw [if_pos (h2.full hf).1]
      simp only [low, if_pos hf]
    · have hp := h2.part (lt_of_le_of_ne (w.nested.le i hi) hf)
      rw [if_neg (by simp [hp.1]), hp.2.2.2.1]
      by_cases h0 : pr i = 0
      · rw [hso.nil_of_zero hi h0]
        simp only [low, if_neg hf, if_pos h0, List.length_nil, if_true]
      · obtain ⟨x, L, e1, e2, e3, e4, e5, e6⟩ := htop i hi (by omega) (lt_of_le_of_ne (w.nested.le i hi) hf)
        rw [if_neg (by omega)]
        unfold minHeightOnStack
        rw [hp.2.2.2.1]
        have hr := w.stack
        rw [e1, List.cons_append] at hr
        rw [minHeight_eq hr e5 (by rw [List.length_append]; omega) _ (by omega)]
        · simp only [low, if_neg hf, if_neg h0]; rw [e2]
        · intro y hy
          rcases List.mem_append.mp hy with h | h
          · have := e6 y h; omega
          · have := (w.base_ge y h).1; omega
  obtain ⟨c, lm, hc1, hc2⟩ := pickLoop_eq hlow p.insts 0 p.insts p.tree_height (by omega)
    (Or.inl ⟨rfl, rfl, fun j hj => by omega⟩)
  have hlowle : ∀ i < p.insts, pr i < 2 ^ i → low i < p.tree_height := by
    intro i hi hlt
    simp only [low, if_neg (Nat.ne_of_lt hlt)]
    split
    · omega
    · rename_i h0
      obtain ⟨x, L, e1, e2, e3, _⟩ := htop i hi (by omega) hlt
      omega
  rcases hc2 with ⟨h1, _, h3⟩ | ⟨h1, _, h3, h4, h5⟩
  · left
    refine ⟨by rw [pickLevel, hc1, h1], fun i hi => ?_⟩
    by_contra hf
    have := hlowle i hi (lt_of_le_of_ne (w.nested.le i hi) hf)
    have := h3 i hi
    omega
  · right
    refine ⟨c, hc1, h1, ?_, ?_⟩
    · refine lt_of_le_of_ne (w.nested.le c h1) (fun hf => ?_)
      simp only [low, if_pos hf] at h3
      omega
    · have hcf : pr c ≠ 2 ^ c := fun hf => by simp only [low, if_pos hf] at h3; omega
      have hclt : pr c < 2 ^ c := lt_of_le_of_ne (w.nested.le c h1) hcf
      by_cases h0 : pr c = 0
      · left
        have hlc : low c = c := by simp only [low, if_neg hcf, if_pos h0]
        refine ⟨h0, ?_, ?_⟩
        · intro i hi
          by_contra hf
          have hilt := lt_of_le_of_ne (w.nested.le i (by omega)) hf
          have h6 := h4 i hi
          rw [hlc] at h6
          simp only [low, if_neg hf] at h6
          split at h6
          · omega
          · rename_i hi0
            obtain ⟨x, L, e1, e2, e3, _⟩ := htop i (by omega) (by omega) hilt
            omega
        · intro j hj hcj hjlt
          by_cases hj0 : pr j = 0
          · rw [hj0]; exact dvd_zero _
          have h6 := h5 j hcj hj
          rw [hlc] at h6
          simp only [low, if_neg (Nat.ne_of_lt hjlt), if_neg hj0] at h6
          obtain ⟨x, L, e1, e2, e3, e4, e5, e6⟩ := htop j hj (by omega) hjlt
          obtain ⟨N', hN'⟩ := (hso j hj).2 hjlt
          apply hN'.dvd_of_heights
          intro y hy
          have hmem : y ∈ segs p.insts seg := mem_segs.mpr ⟨j, hj, hy⟩
          rw [e1] at hmem
          rcases List.mem_cons.mp hmem with rfl | h7
          · omega
          · have := e6 y h7; omega
      · right
        have hlc : low c = t := by simp only [low, if_neg hcf, if_neg h0]
        refine ⟨by omega, fun i hi => ?_⟩
        by_cases hf : pr i = 2 ^ i
        · exact Or.inl hf
        right
        have hilt := lt_of_le_of_ne (w.nested.le i (by omega)) hf
        have h6 := h4 i hi
        rw [hlc] at h6
        by_cases hi0 : pr i = 0
        · refine ⟨hi0, fun hd => ?_⟩
          have hli : low i = i := by simp only [low, if_neg hf, if_pos hi0]
          rw [hli] at h6
          obtain ⟨x, L, e1, e2, e3, e4, e5, e6⟩ := htop c h1 (by omega) hclt
          have hxm : x ∈ segs p.insts seg := by rw [e1]; simp
          obtain ⟨j, hj, hxj⟩ := mem_segs.mp hxm
          obtain ⟨g1, g2, g3⟩ := hso.mem w.nested hj hxj
          have hnj : ¬ j < c := fun hjc => by
            have h7 := h4 j hjc
            rw [hlc] at h7
            simp only [low, if_neg (Nat.ne_of_lt g2), if_neg (Nat.ne_of_gt g1)] at h7
            omega
          rcases Nat.eq_or_lt_of_le (Nat.le_of_not_lt hnj) with hjc | hjc
          · subst hjc
            obtain ⟨N', hN'⟩ := (hso c h1).2 hclt
            have := hN'.heights_dvd i hd x hxj
            omega
          · obtain ⟨N', hN'⟩ := (hso j hj).2 g2
            have := hN'.heights_dvd c (w.nested.dvd c j hjc hj (by omega) hclt g2) x hxj
            omega
        · simp only [low, if_neg hf, if_neg hi0] at h6
          omega

/-! ### Updating an instance -/

theorem segs_split {M : Nat} (seg : Nat → List (Bytes × Nat)) {c : Nat} (hc : c < M) (h : ∀ i < c, seg i = []) :
    segs M seg = seg c ++ (List.range' (c + 1) (M - c - 1)).flatMap seg := by
  unfold segs
  have h1 : List.range M = List.range c ++ c :: List.range' (c + 1) (M - c - 1) := by
    have h0 := List.range'_append_1 (s := 0) (m := c) (n := M - c)
    rw [Nat.zero_add, show c + (M - c) = M by omega] at h0
    rw [List.range_eq_range', List.range_eq_range', ← List.range'_succ, ← h0]
    congr 2
    omega
  rw [h1, List.flatMap_append, List.flatMap_cons]
  have h2 : (List.range c).flatMap seg = [] := by
    rw [List.flatMap_eq_nil_iff]
    intro i hi
    exact h i (List.mem_range.mp hi)
  rw [h2, List.nil_append]

/-- Fields that `bds_treehash_update` leaves alone. -/
structure Same (s s' : BdsState) : Prop where
  auth : s'.auth = s.auth
  keep : s'.keep = s.keep
  retain : s'.retain = s.retain
  nextLeaf : s'.nextLeaf = s.nextLeaf

theorem Same.refl (s : BdsState) : Same s s := ⟨rfl, rfl, rfl, rfl⟩
theorem Same.trans {s s' s'' : BdsState} (h : Same s s') (h' : Same s' s'') : Same s s'' :=
  ⟨h'.auth.trans h.auth, h'.keep.trans h.keep, h'.retain.trans h.retain, h'.nextLeaf.trans h.nextLeaf⟩

theorem treehashUpdate_eq {skSeed pubSeed : Bytes} {layer tree : Nat} {N : Nat → Nat → Bytes} {addr : Addr}
    (ctx : TreeCtx H p skSeed pubSeed layer tree N) (hth : p.tree_height < 31) (ha : IsSub addr layer tree)
    {base : List (Bytes × Nat)} {φ : Nat} {pr : Nat → Nat} {seg : Nat → List (Bytes × Nat)} {s : BdsState}
    (w : WorkInv p N base φ pr seg s) {c : Nat} (hp : Pick p.insts pr c) :
    ∃ s' seg', treehashUpdate H p s c skSeed pubSeed addr = some s' ∧ WorkInv p N base φ (bump pr c) seg' s' ∧
      Same s s' ∧ s'.leaves = s.leaves + 1 := by
  have hso := w.segOk
  have hM : p.insts ≤ p.tree_height := Nat.sub_le _ _
  obtain ⟨t, ht, iok⟩ := w.inst c hp.lt
  obtain ⟨q1, q2, q3, q4, q5, q6⟩ := iok.part hp.incomplete
  obtain ⟨T, hT⟩ : ∃ T, target φ c = T := ⟨_, rfl⟩
  rw [hT] at q3 q5 q6
  have hempty : ∀ i < c, seg i = [] := by
    intro i hi
    have hiM : i < p.insts := lt_trans hi hp.lt
    rcases hp.case with ⟨_, h, _⟩ | ⟨_, h⟩
    · exact (hso i hiM).1 (h i hi)
    · rcases h i hi with h1 | h1
      · exact (hso i hiM).1 h1
      · exact hso.nil_of_zero hiM h1.1
  obtain ⟨post, hpost⟩ : ∃ l, l = (List.range' (c + 1) (p.insts - c - 1)).flatMap seg := ⟨_, rfl⟩
  have hsplit : segs p.insts seg = seg c ++ post := by rw [hpost]; exact segs_split seg hp.lt hempty
  have hsplit' : ∀ x, segs p.insts (fun i => if i = c then x else seg i) = x ++ post := by
    intro x
    rw [segs_split (fun i => if i = c then x else seg i) hp.lt (fun i hi => by
      simp only [if_neg (Nat.ne_of_lt hi)]; exact hempty i hi)]
    simp only [if_true]
    rw [hpost]
    congr 1
    rw [List.flatMap_def, List.flatMap_def]
    congr 1
    apply List.map_congr_left
    intro i hi
    rw [List.mem_range'_1] at hi
    rw [if_neg (by omega)]
  have hrep := w.stack
  rw [hsplit, List.append_assoc] at hrep
  have hleaf := (ctx.leaf (ltreeOf addr) (otsOf addr) t.nextIdx 0 0 ha.ltree ha.ots).1
  have hleaf' : N 0 t.nextIdx = shiftN N (T * 2 ^ c) 0 (pr c) := by
    unfold shiftN; rw [q3]; simp
  have hlt := hp.incomplete
  obtain ⟨nh, node, d, seg', r1, r2, r3, r4⟩ := updateMerge_eq ctx (i := c) (S := T * 2 ^ c) (nextIdx := t.nextIdx)
    (Dvd.intro_left _ rfl) s (post ++ base) (seg c) 0 (pr c) (nodeOf addr) q5 hrep.stack hrep.levels
    (by rw [q3, pow_zero, one_mul]; ring) (by rw [pow_zero, one_mul]; omega) ha.node
  have hoff := hrep.off
  have hnext : t.nextIdx + 1 ≤ 2 ^ p.tree_height := by
    have h1 : (T + 1) * 2 ^ c ≤ 2 ^ (p.tree_height - c) * 2 ^ c := Nat.mul_le_mul_right _ q6
    rw [← pow_add, Nat.sub_add_cancel (by have := hp.lt; omega), Nat.add_mul, one_mul] at h1
    omega
  have h31 : 2 ^ p.tree_height ≤ 2 ^ 31 := Nat.pow_le_pow_right (by omega) (by omega)
  have htm := w.shape.insts_mem t (List.mem_of_getElem? ht)
  have hclen : c < s.treehash.length := by rw [w.shape.insts_len]; exact hp.lt
  -- the new invariant in both cases
  have hmk : ∀ (x : List (Bytes × Nat)) (s' : BdsState) (t' : TreehashInst),
      InstOk p N φ (bump pr c) (fun i => if i = c then x else seg i) c t' → s'.treehash = s.treehash.set c t' →
      Shape p s' → Rep s' (x ++ post ++ base) →
      WorkInv p N base φ (bump pr c) (fun i => if i = c then x else seg i) s' := by
    intro x s' t' hi hts hsh hr
    refine ⟨hsh, ?_, w.nested.bump hp, by rw [hsplit']; exact hr, w.base_len, w.base_ge⟩
    intro i hiM
    by_cases hic : i = c
    · subst hic
      exact ⟨t', by rw [hts, List.getElem?_set_self hclen], hi⟩
    · obtain ⟨t0, g1, g2⟩ := w.inst i hiM
      refine ⟨t0, by rw [hts, List.getElem?_set_ne (Ne.symm hic)]; exact g1, ?_⟩
      constructor
      · rw [bump_ne hic]; simp only [if_neg hic]; exact g2.full
      · rw [bump_ne hic]; simp only [if_neg hic]; exact g2.part
  rw [treehashUpdate, ht]
  simp only [Option.bind_eq_bind, Option.bind_some]
  rw [hleaf, hleaf', q4, hoff, r1]
  simp only [Option.bind_some]
  by_cases hfull : pr c + 1 = 2 ^ c
  · rw [hfull] at r2
    have r2' := r2.full
    simp only [List.cons.injEq, Prod.mk.injEq, Nat.zero_add] at r2'
    obtain ⟨⟨e1, e2⟩, e3⟩ := r2'
    subst e3
    have e4 : node = N c T := by
      rw [e1]; unfold shiftN; rw [Nat.mul_div_cancel _ (Nat.two_pow_pos c), Nat.add_zero]
    rw [if_pos (by rw [e2, q2])]
    refine ⟨_, fun i => if i = c then [] else seg i, rfl, hmk [] _ _ ?_ rfl ?_ ?_, ⟨rfl, rfl, rfl, rfl⟩, rfl⟩
    · constructor
      · intro _
        exact ⟨by simp, by simp, fun _ => by rw [hT]; exact e4⟩
      · intro h; rw [bump_self] at h; omega
    · have sh := w.shape
      refine ⟨sh.stack_len, sh.stack_mem, sh.levels_len, sh.levels_mem, sh.auth_len, sh.auth_mem, sh.keep_len, sh.keep_mem,
        by simpa using sh.insts_len, ?_, sh.retain_len, sh.retain_mem, ?_, sh.next_lt⟩
      · apply forall_mem_set sh.insts_mem
        exact ⟨htm.1, htm.2.1, by simp, by simp, r4⟩
      · have := sh.off_lt
        rw [hoff, r3] at this
        simp at this ⊢
        omega
    · rw [List.append_nil] at r3
      rw [r3] at hrep
      have hs1 := hrep.stack
      have hs2 := hrep.levels
      rw [List.map_append] at hs1 hs2
      exact ⟨rfl, hs1.pops, hs2.pops⟩
  · have hlt' : pr c + 1 < 2 ^ c := by omega
    have hnh := r2.heights_lt c hlt' (node, nh) (by simp)
    simp only [Nat.zero_add] at hnh
    rw [if_neg (by rw [q2]; omega)]
    have hcM := hp.lt
    -- capacity
    have hso' : SegOk p.insts (bump pr c) (fun i => if i = c then (node, nh) :: seg' else seg i) := by
      intro i hi
      by_cases hic : i = c
      · subst hic
        simp only [if_true, bump_self]
        exact ⟨fun h => absurd h hfull, fun _ => ⟨_, r2⟩⟩
      · simp only [if_neg hic, bump_ne hic]; exact hso i hi
    have hcap := hso'.length_le (w.nested.bump hp)
    rw [hsplit'] at hcap
    have hbl := w.base_len
    have hcap' : (seg' ++ (post ++ base)).length < p.tree_height + 1 := by
      simp only [List.length_append, List.length_cons] at hcap ⊢
      omega
    have hpop1 : RepL s.stack ((seg' ++ (post ++ base)).map Prod.fst) := by
      have h1 := hrep.stack
      rw [r3, List.append_assoc, List.map_append] at h1
      exact h1.pops
    have hpop2 : RepL s.stacklevels ((seg' ++ (post ++ base)).map Prod.snd) := by
      have h1 := hrep.levels
      rw [r3, List.append_assoc, List.map_append] at h1
      exact h1.pops
    have sh := w.shape
    rw [setA_some (by rw [sh.stack_len]; exact hcap'), setA_some (by rw [sh.levels_len]; exact hcap')]
    simp only [Option.bind_some]
    refine ⟨_, fun i => if i = c then (node, nh) :: seg' else seg i, rfl,
      hmk ((node, nh) :: seg') _ _ ?_ rfl ?_ ?_, ⟨rfl, rfl, rfl, rfl⟩, rfl⟩
    · constructor
      · intro h; rw [bump_self] at h; omega
      · intro _
        refine ⟨q1, q2, ?_, by simp, ?_, by rw [hT]; exact q6⟩
        · simp only [q3, bump_self, hT]; ring
        · simp only [if_true, bump_self, hT]; exact r2
    · refine ⟨by simpa using sh.stack_len, forall_mem_set sh.stack_mem r4, by simpa using sh.levels_len,
        forall_mem_set sh.levels_mem (by omega), sh.auth_len, sh.auth_mem, sh.keep_len, sh.keep_mem,
        by simpa using sh.insts_len, ?_, sh.retain_len, sh.retain_mem, ?_, sh.next_lt⟩
      · apply forall_mem_set sh.insts_mem
        refine ⟨htm.1, by simp only; omega, ?_, htm.2.2.2.1, htm.2.2.2.2⟩
        simp only [List.length_append] at hcap' ⊢
        omega
      · simp only; omega
    · refine ⟨?_, ?_, ?_⟩
      · simp
      · have h1 := hpop1.push node (by rw [List.length_map, sh.stack_len]; exact hcap')
        rw [List.length_map] at h1
        simpa using h1
      · have h1 := hpop2.push nh (by rw [List.length_map, sh.levels_len]; exact hcap')
        rw [List.length_map] at h1
        simpa using h1

/-! ### Several updates -/

/-- `n` updates, each of an instance that the code picks. -/
inductive Picks (M : Nat) : Nat → (Nat → Nat) → (Nat → Nat) → Prop
  | zero (pr) : Picks M 0 pr pr
  | succ {n pr pr' c} : Pick M pr c → Picks M n (bump pr c) pr' → Picks M (n + 1) pr pr'

/-- All instances are finished. -/
def AllDone (M : Nat) (pr : Nat → Nat) : Prop := ∀ i < M, pr i = 2 ^ i

/-- Updates that the instances still need. -/
def remWork (M : Nat) (pr : Nat → Nat) : Nat := ∑ i ∈ Finset.range M, (2 ^ i - pr i)

theorem remWork_eq_zero {M : Nat} {pr : Nat → Nat} (h : AllDone M pr) : remWork M pr = 0 :=
  Finset.sum_eq_zero (fun i hi => by rw [h i (Finset.mem_range.mp hi), Nat.sub_self])

theorem remWork_bump {M : Nat} {pr : Nat → Nat} {c : Nat} (hp : Pick M pr c) : remWork M (bump pr c) + 1 = remWork M pr := by
  have e := sum_change (s := Finset.range M) (c := c) (Finset.mem_range.mpr hp.lt)
    (f := fun i => 2 ^ i - bump pr c i) (g := fun i => 2 ^ i - pr i) (fun i _ hi => by simp only [bump_ne hi])
  simp only [bump_self] at e
  have := hp.incomplete
  unfold remWork
  omega

theorem Picks.remWork {M n : Nat} {pr pr' : Nat → Nat} (h : Picks M n pr pr') : remWork M pr' + n = remWork M pr := by
  induction h with
  | zero => rfl
  | succ hp _ ih => rw [← remWork_bump hp, ← ih]; omega

theorem Picks.inTime {M n u t b : Nat} {pr pr' : Nat → Nat} (h : Picks M n pr pr') (hn : Nested M pr)
    (hi : InTime M u pr t (b + n)) : InTime M u pr' t b := by
  induction h with
  | zero => exact hi
  | succ hp _ ih => exact ih (hn.bump hp) (InTime.bump hn hp hi)

theorem Picks.active {M n Hh t : Nat} {pr pr' : Nat → Nat} (h : Picks M n pr pr') (ha : Active M Hh pr t) : Active M Hh pr' t := by
  induction h with
  | zero => exact ha
  | succ hp _ ih => exact ih (ha.bump hp)

theorem bdsUpdateLoop_eq {skSeed pubSeed : Bytes} {layer tree : Nat} {N : Nat → Nat → Bytes} {addr : Addr}
    (ctx : TreeCtx H p skSeed pubSeed layer tree N) (hth : p.tree_height < 31) (ha : IsSub addr layer tree)
    {base : List (Bytes × Nat)} {φ : Nat} :
    ∀ (k : Nat) {pr : Nat → Nat} {seg : Nat → List (Bytes × Nat)} {s : BdsState} (used : Nat), WorkInv p N base φ pr seg s →
    ∃ n pr' seg' s', bdsUpdateLoop H p skSeed pubSeed addr k s used = some (s', used + n) ∧ Picks p.insts n pr pr' ∧
      WorkInv p N base φ pr' seg' s' ∧ n ≤ k ∧ (n = k ∨ AllDone p.insts pr') ∧ Same s s' ∧ s'.leaves = s.leaves + n := by
  intro k
  induction k with
  | zero =>
    intro pr seg s used w
    exact ⟨0, pr, seg, s, rfl, Picks.zero pr, w, le_refl _, Or.inl rfl, Same.refl s, rfl⟩
  | succ k ih =>
    intro pr seg s used w
    rcases pickLevel_eq w with ⟨h1, h2⟩ | ⟨c, h1, h2⟩
    · refine ⟨0, pr, seg, s, ?_, Picks.zero pr, w, by omega, Or.inr h2, Same.refl s, rfl⟩
      rw [bdsUpdateLoop, h1]
      simp
    · obtain ⟨s1, seg1, e1, w1, sm1, l1⟩ := treehashUpdate_eq ctx hth ha w h2
      obtain ⟨n, pr', seg', s', e2, pk, w2, hle, hor, sm2, l2⟩ := ih (used + 1) w1
      refine ⟨n + 1, pr', seg', s', ?_, Picks.succ h2 pk, w2, by omega, ?_, sm1.trans sm2, by omega⟩
      · rw [bdsUpdateLoop, h1]
        simp only [Option.bind_eq_bind, Option.bind_some]
        have := h2.lt
        rw [if_neg (by omega), e1]
        simp only [Option.bind_some]
        rw [e2]
        congr 2
        omega
      · rcases hor with h | h
        · exact Or.inl (by omega)
        · exact Or.inr h

/-- `bds_treehash_update`: it makes `n` updates, `updates` of them unless the work is finished before. -/
theorem bdsTreehashUpdate_eq {skSeed pubSeed : Bytes} {layer tree : Nat} {N : Nat → Nat → Bytes} {addr : Addr}
    (ctx : TreeCtx H p skSeed pubSeed layer tree N) (hth : p.tree_height < 31) (ha : IsSub addr layer tree)
    {base : List (Bytes × Nat)} {φ : Nat} (updates : Nat) {pr : Nat → Nat} {seg : Nat → List (Bytes × Nat)} {s : BdsState}
    (w : WorkInv p N base φ pr seg s) :
    ∃ n pr' seg' s', bdsTreehashUpdate H p s updates skSeed pubSeed addr = some (s', charToUnsigned (updates - n)) ∧
      Picks p.insts n pr pr' ∧
      WorkInv p N base φ pr' seg' s' ∧ n ≤ updates ∧ (n = updates ∨ AllDone p.insts pr') ∧ Same s s' ∧
      s'.leaves = s.leaves + n := by
  obtain ⟨n, pr', seg', s', e2, pk, w2, hle, hor, sm2, l2⟩ := bdsUpdateLoop_eq ctx hth ha updates 0 w
  refine ⟨n, pr', seg', s', ?_, pk, w2, hle, hor, sm2, l2⟩
  rw [bdsTreehashUpdate, e2]
  simp

theorem charToUnsigned_eq {x : Nat} (h : x < 128) : charToUnsigned x = x := by
  unfold charToUnsigned
  rw [Nat.mod_eq_of_lt (by omega), if_pos h]

end Xmss
