import Verif.Proof.Wots
/-
The in-place L-tree computes the RFC L-tree.
-/
namespace Xmss

theorem getD_set (l : List Bytes) (i j : Nat) (x : Bytes) :
    (l.set i x).getD j [] = if i = j ∧ j < l.length then x else l.getD j [] := by
  simp only [List.getD_eq_getElem?_getD, List.getElem?_set]
  by_cases h : i = j
  · subst h
    by_cases h2 : i < l.length
    · simp [h2]
    · simp [h2]
  · simp [h]

theorem ext_getD {a b : List Bytes} (hl : a.length = b.length) (h : ∀ j < a.length, a.getD j [] = b.getD j []) :
    a = b := by
  apply List.ext_getElem hl
  intro j h1 h2
  have := h j h1
  simpa [List.getD_eq_getElem?_getD, List.getElem?_eq_getElem h1, List.getElem?_eq_getElem h2] using this

theorem getD_take (l : List Bytes) (k j : Nat) (h : j < k) : (l.take k).getD j [] = l.getD j [] := by
  simp [List.getD_eq_getElem?_getD, h]

theorem ltreeRow_spec (f : Nat → Bytes → Bytes → Bytes) (i : Nat) (xs : List Bytes) :
    (Rfc.Suite.ltreeRow f i xs).length = (xs.length + 1) / 2 ∧
    ∀ j, (Rfc.Suite.ltreeRow f i xs).getD j [] =
      if 2 * j + 1 < xs.length then f (i + j) (xs.getD (2 * j) []) (xs.getD (2 * j + 1) [])
      else xs.getD (2 * j) [] := by
  induction i, xs using Rfc.Suite.ltreeRow.induct with
  | case1 i a b rest ih =>
    rw [Rfc.Suite.ltreeRow]
    obtain ⟨h1, h2⟩ := ih
    refine ⟨by simp [h1]; omega, ?_⟩
    intro j
    cases j with
    | zero => simp
    | succ j =>
      have e : 2 * (j + 1) = 2 * j + 1 + 1 := by ring
      rw [List.getD_cons_succ, h2 j, e]
      simp only [List.getD_cons_succ, List.length_cons]
      have e2 : i + (j + 1) = i + 1 + j := by ring
      rw [e2]
      have e3 : (2 * j + 1 + 1 + 1 < rest.length + 1 + 1) ↔ (2 * j + 1 < rest.length) := by omega
      simp only [e3]
  | case2 i rest hne =>
    have hr : Rfc.Suite.ltreeRow f i rest = rest := by
      match rest, hne with
      | [], _ => rfl
      | [_], _ => rfl
      | a :: b :: r, h => exact absurd rfl (h a b r)
    rw [hr]
    match rest, hne with
    | [], _ => exact ⟨rfl, by intro j; simp⟩
    | [x], _ =>
      refine ⟨by simp, ?_⟩
      intro j
      cases j with
      | zero => simp
      | succ j => simp
    | a :: b :: r, h => exact absurd rfl (h a b r)

variable {H : Bytes → Bytes} {p : Params}

/-- One row in place: the first `k` parents are written, nothing else changes. -/
theorem ltreeRow_eq (hH : ∀ x, (H x).length = p.n) {layer tree lt height : Nat} (pubSeed : Bytes) (k i : Nat)
    (nodes : List Bytes) (a : Addr) (ha : IsLtree a layer tree lt) (h5 : a.a5 = UInt32.ofNat height)
    (hlen : 2 * (i + k) ≤ nodes.length) (hn : ∀ j < nodes.length, (nodes.getD j []).length = p.n) :
    let f := fun j => (suiteOf p H).randHash pubSeed (Rfc.Suite.ltreeAdrs layer tree lt height j)
    (ltreeRow H p pubSeed k i nodes a).1.length = nodes.length ∧
    (∀ j, (ltreeRow H p pubSeed k i nodes a).1.getD j [] =
      if i ≤ j ∧ j < i + k then f j (nodes.getD (2 * j) []) (nodes.getD (2 * j + 1) []) else nodes.getD j []) ∧
    IsLtree (ltreeRow H p pubSeed k i nodes a).2 layer tree lt ∧
    (∀ j < nodes.length, ((ltreeRow H p pubSeed k i nodes a).1.getD j []).length = p.n) := by
  intro f
  induction k generalizing i nodes a with
  | zero => exact ⟨rfl, fun j => by rw [if_neg (by omega)]; rfl, ha, hn⟩
  | succ k ih =>
    have ha' : IsLtree (setTreeIndex a i) layer tree lt := ⟨ha.h0, ha.h1, ha.h2, ha.h3, ha.h4⟩
    have hval := thashH_ltree (H := H) (p := p) ha' h5 (rfl : (setTreeIndex a i).a6 = UInt32.ofNat i) hH
      (l := nodes.getD (2 * i) []) (r := nodes.getD (2 * i + 1) []) (hn _ (by omega)) pubSeed
    have hadr := thashH_addr (H := H) (p := p) (nodes.getD (2 * i) [] ++ nodes.getD (2 * i + 1) []) pubSeed
      (setTreeIndex a i)
    rw [ltreeRow]
    simp only [hval, hadr]
    set v := (suiteOf p H).randHash pubSeed (Rfc.Suite.ltreeAdrs layer tree lt height i) (nodes.getD (2 * i) [])
      (nodes.getD (2 * i + 1) []) with hv
    have hvl : v.length = p.n := hH _
    have hl : (nodes.set i v).length = nodes.length := by simp
    obtain ⟨r1, r2, r3, r4⟩ := ih (i + 1) (nodes.set i v)
      { setTreeIndex a i with a7 := 2 } ⟨ha.h0, ha.h1, ha.h2, ha.h3, ha.h4⟩ h5 (by rw [hl]; omega)
      (by
        intro j hj
        rw [getD_set]
        split
        · exact hvl
        · rw [hl] at hj; exact hn j hj)
    refine ⟨by rw [r1, hl], ?_, r3, by rw [hl] at r4; exact r4⟩
    intro j
    rw [r2 j, getD_set, getD_set, getD_set]
    by_cases hj : i + 1 ≤ j ∧ j < i + 1 + k
    · rw [if_pos hj, if_neg (by omega), if_neg (by omega), if_pos (by omega)]
    · rw [if_neg hj]
      by_cases hij : i = j
      · subst hij
        rw [if_pos ⟨rfl, by omega⟩, if_pos (by omega)]
      · rw [if_neg (by tauto), if_neg (by omega)]

theorem ltreeLoop_eq (hH : ∀ x, (H x).length = p.n) {layer tree lt : Nat} (pubSeed : Bytes) (fuel l height : Nat)
    (nodes : List Bytes) (a : Addr) (ha : IsLtree a layer tree lt) (h5 : a.a5 = UInt32.ofNat height)
    (hl1 : 1 ≤ l) (hlen : l ≤ nodes.length) (hn : ∀ j < nodes.length, (nodes.getD j []).length = p.n) :
    (ltreeLoop H p pubSeed fuel l height nodes a).1.getD 0 [] =
      (Rfc.Suite.ltreeRows (fun height i => (suiteOf p H).randHash pubSeed (Rfc.Suite.ltreeAdrs layer tree lt height i))
        fuel height (nodes.take l)).getD 0 [] ∧
    ((ltreeLoop H p pubSeed fuel l height nodes a).1.getD 0 []).length = p.n ∧
    IsLtree (ltreeLoop H p pubSeed fuel l height nodes a).2 layer tree lt := by
  induction fuel generalizing l height nodes a with
  | zero =>
    refine ⟨?_, hn 0 (by omega), ha⟩
    show nodes.getD 0 [] = (nodes.take l).getD 0 []
    rw [getD_take _ _ _ (by omega)]
  | succ fuel ih =>
    rw [ltreeLoop, Rfc.Suite.ltreeRows]
    have htl : (nodes.take l).length = l := by simp; omega
    rw [htl]
    by_cases hl : l ≤ 1
    · rw [if_pos hl, if_pos hl]
      refine ⟨?_, hn 0 (by omega), ha⟩
      rw [getD_take _ _ _ (by omega)]
    · rw [if_neg hl, if_neg hl]
      have hsh : l >>> 1 = l / 2 := by simp [Nat.shiftRight_eq_div_pow]
      have hand : l &&& 1 = l % 2 := Nat.and_one_is_mod l
      rw [hsh, hand]
      obtain ⟨r1, r2, r3, r4⟩ := ltreeRow_eq hH pubSeed (l / 2) 0 nodes a ha h5 (by omega) hn
      obtain ⟨s1, s2⟩ := ltreeRow_spec
        (fun j => (suiteOf p H).randHash pubSeed (Rfc.Suite.ltreeAdrs layer tree lt height j)) 0 (nodes.take l)
      rw [htl] at s1
      set R := ltreeRow H p pubSeed (l / 2) 0 nodes a with hR
      by_cases hodd : l % 2 = 1
      · simp only [if_pos hodd]
        have key : (R.1.set (l / 2) (R.1.getD (l - 1) [])).take (l / 2 + 1) =
            Rfc.Suite.ltreeRow (fun j => (suiteOf p H).randHash pubSeed (Rfc.Suite.ltreeAdrs layer tree lt height j)) 0
              (nodes.take l) := by
          apply ext_getD
          · simp only [List.length_take, List.length_set, r1, s1]; omega
          · intro j hj
            have hj : j < l / 2 + 1 := by simp at hj; omega
            rw [getD_take _ _ _ hj, getD_set, s2 j, htl, r1]
            by_cases hjl : l / 2 = j
            · rw [if_pos ⟨hjl, by omega⟩, if_neg (by omega), r2, if_neg (by omega), getD_take _ _ _ (by omega)]
              congr 1; omega
            · rw [if_neg (by tauto), if_pos (by omega), r2 j, if_pos (by omega), getD_take _ _ _ (by omega),
                getD_take _ _ _ (by omega), Nat.zero_add]
        rw [← key]
        apply ih
        · exact ⟨r3.h0, r3.h1, r3.h2, r3.h3, r3.h4⟩
        · rfl
        · simp
        · simp [r1]; omega
        · intro j hj
          rw [List.length_set, r1] at hj
          rw [getD_set]
          split
          · exact r4 _ (by omega)
          · exact r4 _ hj
      · simp only [if_neg hodd]
        have key : R.1.take (l / 2) =
            Rfc.Suite.ltreeRow (fun j => (suiteOf p H).randHash pubSeed (Rfc.Suite.ltreeAdrs layer tree lt height j)) 0
              (nodes.take l) := by
          apply ext_getD
          · simp only [List.length_take, r1, s1]; omega
          · intro j hj
            have hj : j < l / 2 := by simp at hj; omega
            rw [getD_take _ _ _ hj, s2 j, htl, if_pos (by omega), r2 j, if_pos (by omega), getD_take _ _ _ (by omega),
                getD_take _ _ _ (by omega), Nat.zero_add]
        rw [← key]
        apply ih
        · exact ⟨r3.h0, r3.h1, r3.h2, r3.h3, r3.h4⟩
        · rfl
        · show 1 ≤ l / 2; omega
        · show l / 2 ≤ R.1.length; omega
        · intro j hj
          rw [r1] at hj
          exact r4 j hj

theorem lTree_eq (g : p.Good) (hH : ∀ x, (H x).length = p.n) {layer tree lt : Nat} (pubSeed : Bytes)
    {nodes : List Bytes} (a : Addr) (ha : IsLtree a layer tree lt) (hlen : nodes.length = p.wots_len)
    (hn : ∀ x ∈ nodes, x.length = p.n) :
    (lTree H p nodes pubSeed a).1 = (suiteOf p H).ltree pubSeed layer tree lt nodes ∧
    (lTree H p nodes pubSeed a).1.length = p.n ∧
    IsLtree (lTree H p nodes pubSeed a).2 layer tree lt := by
  have h := ltreeLoop_eq hH pubSeed p.wots_len p.wots_len 0 nodes (setTreeHeight a 0)
    ⟨ha.h0, ha.h1, ha.h2, ha.h3, ha.h4⟩ rfl g.len_pos (by omega)
    (by
      intro j hj
      apply hn
      simp [List.getD_eq_getElem?_getD, List.getElem?_eq_getElem hj])
  refine ⟨?_, h.2.1, h.2.2⟩
  rw [lTree, h.1, Rfc.Suite.ltree, hlen, List.take_of_length_le (by omega)]

end Xmss
