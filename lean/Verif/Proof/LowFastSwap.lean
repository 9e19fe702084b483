import Verif.Proof.LowFastTop
/-
The pointer-level model of the fast implementation: `deep_state_swap`.
-/
namespace Xmss.Low

set_option linter.unusedSimpArgs false

variable {P : Prims} {H : Bytes → Bytes} {p : Params}

theorem memswap_of {m : Mem} {a b t : Ptr} {len : Nat} {x y : Bytes} (ha : load m a len = some x) (hb : load m b len = some y)
    (ht : Valid m t len) (d1 : Disj a len b len) (d2 : a.blk ≠ t.blk) (d3 : b.blk ≠ t.blk) :
    ∃ m', memswap m a b t len = some m' ∧ OnlyIn m m' [(t, len), (a, len), (b, len)] ∧ Holds m' a y ∧ Holds m' b x := by
  have lx := load_length ha
  have ly := load_length hb
  obtain ⟨m1, s1, o1, H1⟩ := stF ht lx
  have b1 : load m1 b len = some y := keepLoad o1 hb (by dj)
  obtain ⟨m2, s2, o2, H2⟩ := stF (m := m1) (q := a) (x := y) (keepValid o1 (valid_of_load ha)) ly
  have t2 : load m2 t len = some x := keepLoad o2 (H1.load lx) (by dj)
  obtain ⟨m3, s3, o3, H3⟩ := stF (m := m2) (q := b) (x := x) (keepValid o2 (keepValid o1 (valid_of_load hb))) lx
  refine ⟨m3, ?_, ?_, ?_, H3⟩
  · unfold memswap
    simp only [Option.bind_eq_bind]
    rw [memcpy_of ha (Or.inr (by dj)), s1, Option.bind_some, memcpy_of b1 (Or.inr d1), s2, Option.bind_some,
      memcpy_of t2 (Or.inr (by dj)), s3]
  · exact ((o1.sub (by simp)).tr (o2.sub (by simp))).tr (o3.sub (by simp))
  · refine H2.keep o3 ?_
    rw [ly]; dj d1

/-- The bytes of the regions `R` of two states have been exchanged; objects from `N` on are scratch. -/
structure Swp (m m' : Mem) (b1 b2 : Ptr) (N : Nat) (R : List (Nat × Nat)) : Prop where
  len : m'.map List.length = m.map List.length
  out : ∀ b i, b < N → (∀ r ∈ R, ¬ (b = b1.blk ∧ b1.off + r.1 ≤ i ∧ i < b1.off + r.1 + r.2) ∧
    ¬ (b = b2.blk ∧ b2.off + r.1 ≤ i ∧ i < b2.off + r.1 + r.2)) → cell m' b i = cell m b i
  sw : ∀ r ∈ R, ∀ j, r.1 ≤ j → j < r.1 + r.2 → cell m' b1.blk (b1.off + j) = cell m b2.blk (b2.off + j) ∧
    cell m' b2.blk (b2.off + j) = cell m b1.blk (b1.off + j)

theorem Swp.refl (m : Mem) (b1 b2 : Ptr) (N : Nat) : Swp m m b1 b2 N [] := ⟨rfl, fun _ _ _ _ => rfl, fun r hr => by simp at hr⟩

theorem room_of_map {m m' : Mem} (h : m'.map List.length = m.map List.length) {q : Ptr} {len : Nat} (hr : Valid m q len) : Valid m' q len := by
  obtain ⟨b, h1, h2⟩ := hr
  have := congrArg (·[q.blk]?) h
  simp only [List.getElem?_map, h1, Option.map_some] at this
  obtain ⟨b', h3, h4⟩ := Option.map_eq_some_iff.mp this
  exact ⟨b', h3, by omega⟩

/-- A region that has not been exchanged. -/
theorem Swp.old1 {m m' : Mem} {b1 b2 : Ptr} {N S : Nat} {R : List (Nat × Nat)} (h : Swp m m' b1 b2 N R) (hb1 : b1.blk < N)
    (hd : Disj b1 S b2 S) {o l : Nat} (ho : ∀ r ∈ R, r.1 + r.2 ≤ o) (hol : o + l ≤ S) {x : Bytes} (hx : load m (b1 + o) l = some x) :
    load m' (b1 + o) l = some x := by
  have hl := load_length hx
  refine Holds.load ?_ hl
  have hH := Holds.of_load hx
  refine ⟨room_of_map h.len hH.1, ?_⟩
  intro i v hi
  have hil := (List.getElem?_eq_some_iff.mp hi).1
  rw [h.out _ _ (show (b1 + o).blk < N from hb1), hH.2 i v hi]
  intro r hr
  have := ho r hr
  simp only [add_blk, add_off]
  unfold Disj at hd
  omega

theorem Swp.symm {m m' : Mem} {b1 b2 : Ptr} {N : Nat} {R : List (Nat × Nat)} (h : Swp m m' b1 b2 N R) : Swp m m' b2 b1 N R :=
  ⟨h.len, fun b i hb hr => h.out b i hb (fun r hm => ⟨(hr r hm).2, (hr r hm).1⟩), fun r hr j h1 h2 => ⟨(h.sw r hr j h1 h2).2, (h.sw r hr j h1 h2).1⟩⟩

/-- A region that has been exchanged. -/
theorem Swp.new1 {m m' : Mem} {b1 b2 : Ptr} {N S : Nat} {R : List (Nat × Nat)} (h : Swp m m' b1 b2 N R) (hv : Valid m b1 S) {o l : Nat} {r : Nat × Nat}
    (hr : r ∈ R) (h1 : r.1 ≤ o) (h2 : o + l ≤ r.1 + r.2) (hol : o + l ≤ S) {x : Bytes} (hx : load m (b2 + o) l = some x) :
    load m' (b1 + o) l = some x := by
  have hl := load_length hx
  refine Holds.load ?_ hl
  have hH := Holds.of_load hx
  refine ⟨room_of_map h.len (hv.sub _ _ (by omega)), ?_⟩
  intro i v hi
  have hil := (List.getElem?_eq_some_iff.mp hi).1
  simp only [add_blk, add_off]
  have := hH.2 i v hi
  simp only [add_blk, add_off] at this
  rw [Nat.add_assoc, (h.sw r hr (o + i) (by omega) (by omega)).1, ← Nat.add_assoc, this]

theorem holds_cell {m : Mem} {q : Ptr} {x : Bytes} (h : Holds m q x) {i : Nat} (hi : i < x.length) : cell m q.blk (q.off + i) = some (x[i]?) := by
  rw [h.2 i x[i] (List.getElem?_eq_getElem hi), List.getElem?_eq_getElem hi]

/-- Exchanging one more region. -/
theorem Swp.step {m m' : Mem} {b1 b2 t : Ptr} {S o l : Nat} {R : List (Nat × Nat)} (h : Swp m m' b1 b2 t.blk R) (hb1 : b1.blk < t.blk)
    (hb2 : b2.blk < t.blk) (hd : Disj b1 S b2 S) (ht : Valid m t l) (ho : ∀ r ∈ R, r.1 + r.2 ≤ o) (hol : o + l ≤ S)
    {x y : Bytes} (hx : load m (b1 + o) l = some x) (hy : load m (b2 + o) l = some y) :
    ∃ m2, memswap m' (b1 + o) (b2 + o) t l = some m2 ∧ Swp m m2 b1 b2 t.blk ((o, l) :: R) := by
  have lx := load_length hx
  have ly := load_length hy
  obtain ⟨m2, e1, e2, e3, e4⟩ := memswap_of (h.old1 hb1 hd ho hol hx) (h.symm.old1 hb2 (by dj hd) ho hol hy) (room_of_map h.len ht) (by dj hd) (by dj) (by dj)
  refine ⟨m2, e1, ?_⟩
  have hX := Holds.of_load hx
  have hY := Holds.of_load hy
  refine ⟨e2.1.trans h.len, ?_, ?_⟩
  · intro b i hb hr
    simp only [List.mem_cons, forall_eq_or_imp] at hr
    rw [e2.2, h.out b i hb hr.2]
    rintro ⟨r, hm, c1, c2, c3⟩
    simp only [List.mem_cons, List.not_mem_nil, or_false] at hm
    rcases hm with rfl | rfl | rfl
    · simp only at c1; omega
    · simp only [add_blk, add_off] at c1 c2 c3; exact hr.1.1 ⟨c1, c2, c3⟩
    · simp only [add_blk, add_off] at c1 c2 c3; exact hr.1.2 ⟨c1, c2, c3⟩
  · intro r hr j h1 h2
    simp only [List.mem_cons] at hr
    rcases hr with rfl | hr
    · simp only at h1 h2
      have q1 := holds_cell e3 (i := j - o) (by omega)
      have q2 := holds_cell e4 (i := j - o) (by omega)
      have q3 := holds_cell hX (i := j - o) (by omega)
      have q4 := holds_cell hY (i := j - o) (by omega)
      simp only [add_blk, add_off, Nat.add_assoc, show o + (j - o) = j by omega] at q1 q2 q3 q4
      rw [q1, q2, q3, q4]
      exact ⟨rfl, rfl⟩
    · have hro := ho r hr
      have key : ∀ b i, (b = b1.blk ∧ i = b1.off + j ∨ b = b2.blk ∧ i = b2.off + j) → cell m2 b i = cell m' b i := by
        intro b i hbi
        refine e2.2 b i ?_
        rintro ⟨r', hm, c1, c2, c3⟩
        simp only [List.mem_cons, List.not_mem_nil, or_false] at hm
        unfold Disj at hd
        rcases hm with rfl | rfl | rfl
        · simp only at c1; omega
        · simp only [add_blk, add_off] at c1 c2 c3; omega
        · simp only [add_blk, add_off] at c1 c2 c3; omega
      rw [key _ _ (Or.inl ⟨rfl, rfl⟩), key _ _ (Or.inr ⟨rfl, rfl⟩)]
      exact h.sw r hr j h1 h2

/-- The nodes of the instances. -/
theorem swapNodes_of {m : Mem} {b1 b2 t : Ptr} {S : Nat} (hb1 : b1.blk < t.blk) (hb2 : b2.blk < t.blk) (hd : Disj b1 S b2 S) (ht : Valid m t p.n)
    (hS : offF p (.node p.tree_height) ≤ S + 7) :
    ∀ (l1 l2 : List TreehashInst) (k : Nat) (m' : Mem) (R : List (Nat × Nat)), l1.length = l2.length → k + l1.length = p.tree_height →
      Swp m m' b1 b2 t.blk R → (∀ r ∈ R, r.1 + r.2 ≤ offF p (.node k)) →
      (∀ j s, l1[j]? = some s → load m (b1 + offF p (.node (k + j))) p.n = some s.node) →
      (∀ j s, l2[j]? = some s → load m (b2 + offF p (.node (k + j))) p.n = some s.node) →
      ∃ m2 R2, swapNodes p t (l1.mapIdx fun i => linst p b1 (k + i)) (l2.mapIdx fun i => linst p b2 (k + i)) m' =
          some (l2.mapIdx (fun i => linst p b1 (k + i)), l1.mapIdx (fun i => linst p b2 (k + i)), m2) ∧ Swp m m2 b1 b2 t.blk R2 ∧
        (∀ r ∈ R, r ∈ R2) ∧ (∀ j, j < l1.length → (offF p (.node (k + j)), p.n) ∈ R2) ∧
        (∀ r ∈ R2, r.1 + r.2 + 7 ≤ offF p (.node p.tree_height) ∨ r ∈ R) := by
  intro l1
  induction l1 with
  | nil =>
    intro l2 k m' R h12 hk hS hR _ _
    cases l2 with
    | nil => exact ⟨m', R, rfl, hS, fun r h => h, fun j hj => by simp at hj, fun r h => Or.inr h⟩
    | cons => simp at h12
  | cons s1 l1 ih =>
    intro l2 k m' R h12 hk hSw hR hl1 hl2
    cases l2 with
    | nil => simp at h12
    | cons s2 l2 =>
      simp only [List.length_cons] at h12 hk
      have g1 := hl1 0 s1 rfl
      have g2 := hl2 0 s2 rfl
      rw [Nat.add_zero] at g1 g2
      have hle : offF p (.node k) + p.n + 7 ≤ offF p (.node (k + 1)) := by
        simp only [offF]; have : (k + 1) * (7 + p.n) = k * (7 + p.n) + (7 + p.n) := by ring
        omega
      have hle2 : offF p (.node (k + 1)) ≤ offF p (.node p.tree_height) := by
        simp only [offF]; have : (k + 1) * (7 + p.n) ≤ p.tree_height * (7 + p.n) := Nat.mul_le_mul_right _ (by omega)
        omega
      obtain ⟨m1, e1, e2⟩ := hSw.step hb1 hb2 hd ht hR (by omega) g1 g2
      obtain ⟨m2, R2, f1, f2, f3, f4, f5⟩ := ih l2 (k + 1) m1 _ (by omega) (by omega) e2 (by
          intro r hr
          simp only [List.mem_cons] at hr
          rcases hr with rfl | hr
          · simp only; omega
          · have := hR r hr; omega)
        (fun j s hj => by have := hl1 (j + 1) s hj; rwa [show k + (j + 1) = k + 1 + j by omega] at this)
        (fun j s hj => by have := hl2 (j + 1) s hj; rwa [show k + (j + 1) = k + 1 + j by omega] at this)
      refine ⟨m2, R2, ?_, f2, fun r hr => f3 r (List.mem_cons_of_mem _ hr), ?_, ?_⟩
      · rw [List.mapIdx_cons, List.mapIdx_cons, List.mapIdx_cons, List.mapIdx_cons, swapNodes]
        simp only [Option.bind_eq_bind]
        rw [show (linst p b1 (k + 0) s1).node = b1 + offF p (.node k) from rfl, show (linst p b2 (k + 0) s2).node = b2 + offF p (.node k) from rfl,
          e1, Option.bind_some]
        have q : ∀ b : Ptr, (fun i => linst p b (k + (i + 1))) = fun i => linst p b (k + 1 + i) := fun b => by
          funext i; rw [show k + (i + 1) = k + 1 + i by omega]
        rw [q, q, f1]
        rfl
      · intro j hj
        cases j with
        | zero => exact f3 _ (by simp)
        | succ j =>
          have := f4 j (by simpa using hj)
          rwa [show k + 1 + j = k + (j + 1) by omega] at this
      · intro r hr
        rcases f5 r hr with h | h
        · exact Or.inl h
        · simp only [List.mem_cons] at h
          rcases h with rfl | h
          · left; simp only; omega
          · exact Or.inr h

end Xmss.Low
