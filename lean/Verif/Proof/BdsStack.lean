import Verif.Model.Bds
import Verif.Proof.Core
/-
The shared node stack of the BDS traversal: representation in the arrays of the state, and `treehash_update` on it.
-/
namespace Xmss

/-- What the traversal functions use of the hash functions: leaves and inner nodes of the tree `N` at (layer, tree). -/
structure TreeCtx (H : Bytes → Bytes) (p : Params) (skSeed pubSeed : Bytes) (layer tree : Nat) (N : Nat → Nat → Bytes) :
    Prop where
  leaf : ∀ lt ots i j k, IsLtree lt layer tree j → IsOts ots layer tree k →
    (genLeafWots H p skSeed pubSeed (setLtreeAddr lt i) (setOtsAddr ots i)).1 = N 0 i ∧
    IsLtree (genLeafWots H p skSeed pubSeed (setLtreeAddr lt i) (setOtsAddr ots i)).2.1 layer tree i ∧
    IsOts (genLeafWots H p skSeed pubSeed (setLtreeAddr lt i) (setOtsAddr ots i)).2.2 layer tree i
  node : ∀ a h q, IsTree a layer tree →
    (thashH H p (N h (2 * q) ++ N h (2 * q + 1)) pubSeed (setTreeIndex (setTreeHeight a h) q)).1 = N (h + 1) q
  nodeAddr : ∀ a h q x, IsTree a layer tree →
    IsTree (thashH H p x pubSeed (setTreeIndex (setTreeHeight a h) q)).2 layer tree
  len : ∀ h i, (N h i).length = p.n

variable {H : Bytes → Bytes} {p : Params}

theorem treeCtx_suite (g : p.Good) (hH : ∀ x, (H x).length = p.n) (skSeed pubSeed : Bytes) (layer tree : Nat) :
    TreeCtx H p skSeed pubSeed layer tree ((suiteOf p H).node skSeed pubSeed layer tree) where
  leaf := fun lt ots i j k hlt hots => by
    have h := genLeafWots_eq g hH (layer := layer) (tree := tree) (i := i) skSeed pubSeed
      (setLtreeAddr lt i) (setOtsAddr ots i)
      ⟨hlt.h0, hlt.h1, hlt.h2, hlt.h3, rfl⟩ ⟨hots.h0, hots.h1, hots.h2, hots.h3, rfl⟩
    exact ⟨h.1, h.2.2.1, h.2.2.2⟩
  node := fun a h q ha =>
    thashH_tree (H := H) (p := p) (a := setTreeIndex (setTreeHeight a h) q) (height := h) (index := q)
        ⟨ha.h0, ha.h1, ha.h2, ha.h3, ha.h4⟩ rfl rfl hH (node_length g hH _ _ _ _ _ _) pubSeed
  nodeAddr := fun a h q x ha => by
    rw [thashH_addr]; exact ⟨ha.h0, ha.h1, ha.h2, ha.h3, ha.h4⟩
  len := fun h i => node_length g hH _ _ _ _ _ _

/-- The subtree part of an address. -/
structure IsSub (a : Addr) (layer tree : Nat) : Prop where
  h0 : a.a0 = UInt32.ofNat layer
  h1 : a.a1 = UInt32.ofNat (tree >>> 32)
  h2 : a.a2 = UInt32.ofNat tree

theorem IsSub.ots {a : Addr} {layer tree : Nat} (h : IsSub a layer tree) : IsOts (otsOf a) layer tree 0 :=
  ⟨h.h0, h.h1, h.h2, rfl, rfl⟩
theorem IsSub.ltree {a : Addr} {layer tree : Nat} (h : IsSub a layer tree) : IsLtree (ltreeOf a) layer tree 0 :=
  ⟨h.h0, h.h1, h.h2, rfl, rfl⟩
theorem IsSub.node {a : Addr} {layer tree : Nat} (h : IsSub a layer tree) : IsTree (nodeOf a) layer tree :=
  ⟨h.h0, h.h1, h.h2, rfl, rfl⟩

/-! ### Stacks in arrays -/

/-- The array `l` holds the stack `L` (top first) in its first slots. -/
def RepL {α : Type} (l L : List α) : Prop := l.take L.length = L.reverse

theorem RepL.length_le {α : Type} {l L : List α} (h : RepL l L) : L.length ≤ l.length := by
  have := congrArg List.length h
  simp at this; exact this

theorem RepL.nil {α : Type} (l : List α) : RepL l [] := rfl

theorem RepL.top {α : Type} {l L : List α} {x : α} (h : RepL l (x :: L)) : l[L.length]? = some x := by
  have h1 : (l.take (L.length + 1))[L.length]? = some x := by
    have : l.take (L.length + 1) = (x :: L).reverse := h
    rw [this]; simp
  rw [List.getElem?_take_of_lt (by omega)] at h1
  exact h1

theorem RepL.pop {α : Type} {l L : List α} {x : α} (h : RepL l (x :: L)) : RepL l L := by
  have : l.take (L.length + 1) = (x :: L).reverse := h
  have h2 := congrArg (List.take L.length) this
  rw [List.take_take] at h2
  unfold RepL
  simpa using h2

theorem RepL.pops {α : Type} {l L : List α} (d : List α) (h : RepL l (d ++ L)) : RepL l L := by
  induction d with
  | nil => exact h
  | cons x d ih => exact ih h.pop

theorem RepL.push {α : Type} {l L : List α} (x : α) (h : RepL l L) (hl : L.length < l.length) :
    RepL (l.set L.length x) (x :: L) := by
  unfold RepL
  rw [List.length_cons, List.reverse_cons, ← h, List.take_add_one]
  rw [List.take_set_of_le (le_refl _)]
  simp [hl]

theorem RepL.set_above {α : Type} {l L : List α} (x : α) {i : Nat} (h : RepL l L) (hi : L.length ≤ i) : RepL (l.set i x) L := by
  unfold RepL
  rw [← h, List.take_set_of_le hi]

theorem RepL.get {α : Type} {l L : List α} (h : RepL l L) {i : Nat} (hi : i < L.length) : l[L.length - i - 1]? = L[i]? := by
  have h1 : (l.take L.length)[L.length - i - 1]? = L.reverse[L.length - i - 1]? := by rw [h]
  rw [List.getElem?_take_of_lt (by omega)] at h1
  rw [h1, List.getElem?_reverse (by omega)]
  congr 1
  omega

/-- The stack fields of the state hold the stack `L` of nodes with their heights (top first). -/
structure Rep (s : BdsState) (L : List (Bytes × Nat)) : Prop where
  off : s.stackoffset = L.length
  stack : RepL s.stack (L.map Prod.fst)
  levels : RepL s.stacklevels (L.map Prod.snd)

/-! ### Binary-counter stacks -/

theorem IsStk.heights_lt {N : Nat → Nat → Bytes} {j m : Nat} {s : List (Bytes × Nat)} (h : IsStk N j m s) :
    ∀ K, m < 2 ^ K → ∀ x ∈ s, x.2 < j + K := by
  induction h with
  | nil => simp
  | @even j m s h ih =>
    intro K hK x hx
    cases K with
    | zero => rw [h.of_zero (by simpa using hK)] at hx; simp at hx
    | succ K => have := ih K (by rw [pow_succ] at hK; omega) x hx; omega
  | @odd j m s h ih =>
    intro K hK x hx
    cases K with
    | zero => simp at hK
    | succ K =>
      rcases List.mem_cons.mp hx with rfl | hx
      · simp
      · have := ih K (by rw [pow_succ] at hK; omega) x hx; omega

theorem IsStk.heights_dvd {N : Nat → Nat → Bytes} {j m : Nat} {s : List (Bytes × Nat)} (h : IsStk N j m s) :
    ∀ k, 2 ^ k ∣ m → ∀ x ∈ s, j + k ≤ x.2 := by
  induction h with
  | nil => simp
  | @even j m s h ih =>
    intro k hk x hx
    cases k with
    | zero => have := h.heights x hx; omega
    | succ k =>
      have := ih k (by rw [pow_succ, mul_comm] at hk; exact Nat.dvd_of_mul_dvd_mul_left (by omega) hk) x hx
      omega
  | @odd j m s h ih =>
    intro k hk x hx
    cases k with
    | zero => have := (IsStk.odd h).heights x hx; omega
    | succ k =>
      exfalso
      have : 2 ∣ 2 * m + 1 := (Dvd.intro_left (2 ^ k) (by ring)).trans hk
      omega

theorem IsStk.dvd_of_heights {N : Nat → Nat → Bytes} {j m : Nat} {s : List (Bytes × Nat)} (h : IsStk N j m s) :
    ∀ k, (∀ x ∈ s, j + k ≤ x.2) → 2 ^ k ∣ m := by
  induction h with
  | nil => simp
  | @even j m s h ih =>
    intro k hk
    cases k with
    | zero => simp
    | succ k =>
      rw [pow_succ, mul_comm]
      exact Nat.mul_dvd_mul_left 2 (ih k (fun x hx => by have := hk x hx; omega))
  | @odd j m s h ih =>
    intro k hk
    cases k with
    | zero => simp
    | succ k => have := hk (N j (2 * m), j) (by simp); simp at this

theorem IsStk.sorted {N : Nat → Nat → Bytes} {j m : Nat} {s : List (Bytes × Nat)} (h : IsStk N j m s) :
    s.Pairwise (fun x y => x.2 < y.2) := by
  induction h with
  | nil => exact List.Pairwise.nil
  | even _ ih => exact ih
  | odd h ih => exact List.Pairwise.cons (fun y hy => h.heights y hy) ih

theorem IsStk.ne_nil {N : Nat → Nat → Bytes} {j m : Nat} {s : List (Bytes × Nat)} (h : IsStk N j m s) (hm : 0 < m) : s ≠ [] := by
  intro hs
  have hd : ∀ k, 2 ^ k ∣ m := fun k => h.dvd_of_heights k (by rw [hs]; simp)
  have := Nat.le_of_dvd hm (hd m)
  have := Nat.lt_two_pow_self (n := m)
  omega

/-- The nodes of the tree seen from leaf `S`. -/
def shiftN (N : Nat → Nat → Bytes) (S : Nat) : Nat → Nat → Bytes := fun h j => N h (S / 2 ^ h + j)

theorem updateMerge_eq {skSeed pubSeed : Bytes} {layer tree : Nat} {N : Nat → Nat → Bytes}
    (ctx : TreeCtx H p skSeed pubSeed layer tree N) {S i nextIdx : Nat} (hS : 2 ^ i ∣ S) (s : BdsState)
    (rest : List (Bytes × Nat)) :
    ∀ (seg : List (Bytes × Nat)) (j m : Nat) (a : Addr), IsStk (shiftN N S) j m seg →
      RepL s.stack ((seg ++ rest).map Prod.fst) → RepL s.stacklevels ((seg ++ rest).map Prod.snd) →
      nextIdx + 1 = S + 2 ^ j * (m + 1) → 2 ^ j * (m + 1) ≤ 2 ^ i → IsTree a layer tree →
      ∃ nh node d seg', updateMerge H p pubSeed s nextIdx seg.length (seg ++ rest).length j (shiftN N S j m) a =
          some (seg'.length, (seg' ++ rest).length, nh, node) ∧
        IsStk (shiftN N S) j (m + 1) ((node, nh) :: seg') ∧ seg = d ++ seg' ∧ node.length = p.n := by
  intro seg
  induction seg with
  | nil =>
    intro j m a hs _ _ _ _ _
    rcases Nat.even_or_odd' m with ⟨q, rfl | rfl⟩
    · exact ⟨j, _, [], [], rfl, IsStk.odd hs.inv_even, rfl, ctx.len _ _⟩
    · obtain ⟨_, h, _⟩ := hs.inv_odd; simp at h
  | cons x seg ih =>
    intro j m a hs hr1 hr2 hm hle ha
    rcases Nat.even_or_odd' m with ⟨q, rfl | rfl⟩
    · have hx := hs.inv_even.heights x (by simp)
      refine ⟨j, _, [], x :: seg, ?_, IsStk.odd hs.inv_even, rfl, ctx.len _ _⟩
      have h2 : s.stacklevels[(seg ++ rest).length]? = some x.2 := by
        have := RepL.top (l := s.stacklevels) (x := x.2) (L := (seg ++ rest).map Prod.snd) hr2
        simpa using this
      rw [List.cons_append, List.length_cons, List.length_cons, updateMerge, if_neg (by omega)]
      simp only [Nat.add_sub_cancel, h2, Option.bind_eq_bind, Option.bind_some]
      rw [if_neg (by omega)]
    · obtain ⟨s', h, hs'⟩ := hs.inv_odd
      simp only [List.cons.injEq] at h
      obtain ⟨rfl, rfl⟩ := h
      have h1 : s.stack[(seg ++ rest).length]? = some (shiftN N S j (2 * q)) := by
        have := RepL.top (l := s.stack) (L := (seg ++ rest).map Prod.fst) hr1
        simpa using this
      have h2 : s.stacklevels[(seg ++ rest).length]? = some j := by
        have := RepL.top (l := s.stacklevels) (L := (seg ++ rest).map Prod.snd) hr2
        simpa using this
      have hm' : nextIdx + 1 = S + 2 ^ (j + 1) * (q + 1) := by rw [hm, pow_succ]; ring
      have hle' : 2 ^ (j + 1) * (q + 1) ≤ 2 ^ i := by
        have : 2 ^ (j + 1) * (q + 1) = 2 ^ j * (2 * q + 1 + 1) := by ring
        omega
      have hji : j + 1 ≤ i := by
        have h3 : 2 ^ (j + 1) ≤ 2 ^ i := le_trans (Nat.le_mul_of_pos_right _ (by omega)) hle'
        exact (Nat.pow_le_pow_iff_right (by omega)).mp h3
      obtain ⟨S', hS'⟩ : 2 ^ (j + 1) ∣ S := (pow_dvd_pow 2 hji).trans hS
      have hidx : nextIdx >>> (j + 1) = S' + q := by
        rw [Nat.shiftRight_eq_div_pow]
        apply div_of_succ_eq
        rw [hm', hS']; ring
      have e1 : S / 2 ^ j = 2 * S' := by
        rw [hS', pow_succ, mul_assoc, Nat.mul_div_cancel_left _ (Nat.two_pow_pos j)]
      have e2 : S / 2 ^ (j + 1) = S' := by rw [hS', Nat.mul_div_cancel_left _ (Nat.two_pow_pos _)]
      have hval := ctx.node a j (S' + q) ha
      have hN1 : shiftN N S j (2 * q) = N j (2 * (S' + q)) := by
        unfold shiftN; rw [e1]; congr 1; ring
      have hN2 : shiftN N S j (2 * q + 1) = N j (2 * (S' + q) + 1) := by
        unfold shiftN; rw [e1]; congr 1; ring
      have hN3 : N (j + 1) (S' + q) = shiftN N S (j + 1) q := by unfold shiftN; rw [e2]
      have had := ctx.nodeAddr a j (S' + q) (N j (2 * (S' + q)) ++ N j (2 * (S' + q) + 1)) ha
      obtain ⟨nh, node, d, seg', r1, r2, r3, r4⟩ := ih (j + 1) q _ hs' (RepL.pop hr1) (RepL.pop hr2) hm' hle' had
      refine ⟨nh, node, _ :: d, seg', ?_, ?_, by rw [r3]; rfl, r4⟩
      · rw [List.cons_append, List.length_cons, List.length_cons, updateMerge, if_neg (by omega)]
        simp only [Nat.add_sub_cancel, h1, h2, Option.bind_eq_bind, Option.bind_some, if_true]
        rw [hidx, hN1, hN2, hval, hN3]
        exact r1
      · have : 2 * q + 1 + 1 = 2 * (q + 1) := by ring
        rw [this]
        exact IsStk.even r2

end Xmss
