import Verif.Proof.Ltree
/-
`gen_leaf_wots`, `treehash` and `compute_root` compute the RFC's leaves, nodes, authentication paths and roots.
-/
namespace Xmss

variable {H : Bytes → Bytes} {p : Params}

theorem chain_length (S : Rfc.Suite) (hH : ∀ x, (S.hash x).length = S.n) (seed : Rfc.Bytes)
    (adrs : Nat → Nat → Rfc.Bytes) {x : Rfc.Bytes} (hx : x.length = S.n) (i s : Nat) :
    (S.chain seed adrs x i s).length = S.n := by
  cases s with
  | zero => exact hx
  | succ s => exact hH _

theorem wotsPk_len (S : Rfc.Suite) (sk seed : Rfc.Bytes) (l t o : Nat) : (S.wotsPk sk seed l t o).length = S.len := by
  simp [Rfc.Suite.wotsPk]
theorem wotsSig_len (S : Rfc.Suite) (sk seed M : Rfc.Bytes) (l t o : Nat) :
    (S.wotsSig sk seed M l t o).length = S.len := by
  simp [Rfc.Suite.wotsSig]
theorem wotsPkFromSig_len (S : Rfc.Suite) (seed M : Rfc.Bytes) (sig : List Rfc.Bytes) (l t o : Nat) :
    (S.wotsPkFromSig seed M sig l t o).length = S.len := by
  simp [Rfc.Suite.wotsPkFromSig]

theorem wotsPk_mem_len (S : Rfc.Suite) (hH : ∀ x, (S.hash x).length = S.n) (sk seed : Rfc.Bytes) (l t o : Nat) :
    ∀ x ∈ S.wotsPk sk seed l t o, x.length = S.n := by
  intro x hx
  simp only [Rfc.Suite.wotsPk, List.mem_map] at hx
  obtain ⟨j, _, rfl⟩ := hx
  exact chain_length S hH _ _ (hH _) _ _

theorem wotsSig_mem_len (S : Rfc.Suite) (hH : ∀ x, (S.hash x).length = S.n) (sk seed M : Rfc.Bytes) (l t o : Nat) :
    ∀ x ∈ S.wotsSig sk seed M l t o, x.length = S.n := by
  intro x hx
  simp only [Rfc.Suite.wotsSig, List.mem_map] at hx
  obtain ⟨j, _, rfl⟩ := hx
  exact chain_length S hH _ _ (hH _) _ _

theorem wotsPkFromSig_mem_len (S : Rfc.Suite) (hH : ∀ x, (S.hash x).length = S.n) (seed M : Rfc.Bytes)
    {sig : List Rfc.Bytes} (hs : sig.length = S.len) (hsig : ∀ x ∈ sig, x.length = S.n) (l t o : Nat) :
    ∀ x ∈ S.wotsPkFromSig seed M sig l t o, x.length = S.n := by
  intro x hx
  simp only [Rfc.Suite.wotsPkFromSig, List.mem_map, List.mem_range] at hx
  obtain ⟨j, hj, rfl⟩ := hx
  apply chain_length S hH
  apply hsig
  have hj2 : j < sig.length := by omega
  simp [List.getD_eq_getElem?_getD, List.getElem?_eq_getElem hj2]

theorem genLeafWots_eq (g : p.Good) (hH : ∀ x, (H x).length = p.n) {layer tree i : Nat} (skSeed pubSeed : Bytes)
    (lt ots : Addr) (hlt : IsLtree lt layer tree i) (hots : IsOts ots layer tree i) :
    (genLeafWots H p skSeed pubSeed lt ots).1 = (suiteOf p H).leaf skSeed pubSeed layer tree i ∧
    (genLeafWots H p skSeed pubSeed lt ots).1.length = p.n ∧
    IsLtree (genLeafWots H p skSeed pubSeed lt ots).2.1 layer tree i ∧
    IsOts (genLeafWots H p skSeed pubSeed lt ots).2.2 layer tree i := by
  have h1 := wotsPkgen_eq (H := H) g skSeed pubSeed ots hots
  have h2 := lTree_eq g hH pubSeed lt hlt (nodes := (suiteOf p H).wotsPk skSeed pubSeed layer tree i)
    (by rw [wotsPk_len, g.len_eq']) (wotsPk_mem_len (suiteOf p H) hH _ _ _ _ _)
  unfold genLeafWots
  simp only [h1.1]
  exact ⟨h2.1, h2.2.1, h2.2.2, h1.2⟩

theorem node_length (g : p.Good) (hH : ∀ x, (H x).length = p.n) (skSeed pubSeed : Bytes) (layer tree k i : Nat) :
    ((suiteOf p H).node skSeed pubSeed layer tree k i).length = p.n := by
  cases k with
  | zero =>
    have h := genLeafWots_eq g hH (layer := layer) (tree := tree) (i := i) skSeed pubSeed
      ⟨UInt32.ofNat layer, UInt32.ofNat (tree >>> 32), UInt32.ofNat tree, UInt32.ofNat 1, UInt32.ofNat i, 0, 0, 0⟩
      ⟨UInt32.ofNat layer, UInt32.ofNat (tree >>> 32), UInt32.ofNat tree, UInt32.ofNat 0, UInt32.ofNat i, 0, 0, 0⟩
      ⟨rfl, rfl, rfl, rfl, rfl⟩ ⟨rfl, rfl, rfl, rfl, rfl⟩
    show ((suiteOf p H).leaf skSeed pubSeed layer tree i).length = p.n
    rw [← h.1]; exact h.2.1
  | succ k => exact hH _

/-! ### The node stack -/

/-- `IsStk N j m s`: the stack `s` (top first) holds, for the set bits of `m`, the roots of the perfect subtrees that
make up the first `m` nodes of height `j`. -/
inductive IsStk (N : Nat → Nat → Bytes) : Nat → Nat → List (Bytes × Nat) → Prop
  | nil (j) : IsStk N j 0 []
  | even {j m s} : IsStk N (j + 1) m s → IsStk N j (2 * m) s
  | odd {j m s} : IsStk N (j + 1) m s → IsStk N j (2 * m + 1) ((N j (2 * m), j) :: s)

theorem IsStk.heights {N : Nat → Nat → Bytes} {j m : Nat} {s : List (Bytes × Nat)} (h : IsStk N j m s) :
    ∀ x ∈ s, j ≤ x.2 := by
  induction h with
  | nil => simp
  | even _ ih => intro x hx; have := ih x hx; omega
  | odd _ ih =>
    intro x hx
    rcases List.mem_cons.mp hx with rfl | hx
    · exact Nat.le_refl _
    · have := ih x hx; omega

theorem IsStk.of_zero {N : Nat → Nat → Bytes} {j m : Nat} {s : List (Bytes × Nat)} (h : IsStk N j m s) (hm : m = 0) :
    s = [] := by
  induction h with
  | nil => rfl
  | even _ ih => exact ih (by omega)
  | odd _ => omega

theorem IsStk.length_le {N : Nat → Nat → Bytes} {j m : Nat} {s : List (Bytes × Nat)} (h : IsStk N j m s) :
    ∀ K, m < 2 ^ K → s.length ≤ K := by
  induction h with
  | nil => intro K _; simp
  | even h ih =>
    intro K hK
    cases K with
    | zero => rw [h.of_zero (by simpa using hK)]; simp
    | succ K => have := ih K (by rw [pow_succ] at hK; omega); omega
  | odd h ih =>
    intro K hK
    cases K with
    | zero => simp at hK
    | succ K => have := ih K (by rw [pow_succ] at hK; omega); simp; omega

theorem IsStk.inv_even {N : Nat → Nat → Bytes} {j m : Nat} {s : List (Bytes × Nat)} (h : IsStk N j (2 * m) s) :
    IsStk N (j + 1) m s := by
  generalize he : 2 * m = m2 at h
  cases h with
  | nil => have : m = 0 := by omega
           subst this; exact IsStk.nil _
  | @even _ m' _ h => have : m = m' := by omega
                      subst this; exact h
  | odd h => omega

theorem IsStk.inv_odd {N : Nat → Nat → Bytes} {j m : Nat} {s : List (Bytes × Nat)} (h : IsStk N j (2 * m + 1) s) :
    ∃ s', s = (N j (2 * m), j) :: s' ∧ IsStk N (j + 1) m s' := by
  generalize he : 2 * m + 1 = m2 at h
  cases h with
  | nil => omega
  | even h => omega
  | @odd _ m' s' h => have : m = m' := by omega
                      subst this; exact ⟨s', rfl, h⟩

theorem xor_one_eq_sibling (x : Nat) : x ^^^ 1 = Rfc.Suite.sibling x := by
  rcases Nat.even_or_odd x with ⟨k, rfl⟩ | ⟨k, rfl⟩
  · rw [Rfc.Suite.sibling, if_pos (by omega)]
    have : k + k = 2 * k := by ring
    rw [this]
    simp
  · rw [Rfc.Suite.sibling, if_neg (by omega)]
    apply Nat.eq_of_testBit_eq
    intro i
    cases i with
    | zero => simp; omega
    | succ i =>
      have h1 : (2 * k + 1) / 2 = k := by omega
      have h2 : (2 * k + 1 - 1) / 2 = k := by omega
      rw [Nat.testBit_xor, Nat.testBit_succ, Nat.testBit_succ, Nat.testBit_succ, h1, h2]
      simp

theorem sibling_sibling_div (x : Nat) : Rfc.Suite.sibling x / 2 = x / 2 := by
  unfold Rfc.Suite.sibling; split <;> omega

/-- The authentication path array is right at level `k` as far as `t` leaves have been processed. -/
def AuthOk (N : Nat → Nat → Bytes) (leafIdx t k : Nat) (auth : List Bytes) : Prop :=
  (Rfc.Suite.sibling (leafIdx / 2 ^ k) + 1) * 2 ^ k ≤ t → auth.getD k [] = N k (Rfc.Suite.sibling (leafIdx / 2 ^ k))

theorem setAuth_some {auth : List Bytes} {j : Nat} {x : Bytes} (h : j < auth.length) :
    setAuth auth j x = some (auth.set j x) := by simp [setAuth, h]

theorem div_of_succ_eq {idx e m : Nat} (h : idx + 1 = 2 ^ e * (m + 1)) : idx / 2 ^ e = m := by
  have hp : 0 < 2 ^ e := Nat.two_pow_pos e
  rw [Nat.mul_add, mul_one] at h
  apply Nat.div_eq_of_lt_le
  · rw [mul_comm]; omega
  · rw [Nat.add_mul, one_mul, mul_comm]; omega

theorem treehashMerge_stop (pubSeed : Bytes) (leafIdx idx : Nat) (x : Bytes) (j : Nat) (s : List (Bytes × Nat))
    (auth : List Bytes) (a : Addr) (h : ∀ y ∈ s, j + 1 ≤ y.2) :
    treehashMerge H p pubSeed leafIdx idx x j s auth a = some ((x, j) :: s, auth, a) := by
  cases s with
  | nil => rfl
  | cons y s =>
    have := h y (by simp)
    rw [treehashMerge, if_neg (by omega)]

theorem treehashMerge_eq (g : p.Good) (hH : ∀ x, (H x).length = p.n) {layer tree : Nat} (skSeed pubSeed : Bytes)
    {leafIdx idx : Nat} (hidx : idx < 2 ^ p.tree_height) (hleaf : leafIdx < 2 ^ p.tree_height)
    {N : Nat → Nat → Bytes} (hN : N = (suiteOf p H).node skSeed pubSeed layer tree) :
    ∀ (j m : Nat) (s : List (Bytes × Nat)) (auth : List Bytes) (a : Addr), IsStk N j m s → idx + 1 = 2 ^ j * (m + 1) →
      IsTree a layer tree → auth.length = p.tree_height →
      (∀ k ≤ j, k < p.tree_height → AuthOk N leafIdx (idx + 1) k auth) →
      (∀ k, j < k → k < p.tree_height → AuthOk N leafIdx idx k auth) →
      ∃ s' auth' a', treehashMerge H p pubSeed leafIdx idx (N j m) j s auth a = some (s', auth', a') ∧
        IsStk N j (m + 1) s' ∧ IsTree a' layer tree ∧ auth'.length = p.tree_height ∧
        (∀ k < p.tree_height, AuthOk N leafIdx (idx + 1) k auth') := by
  intro j m s
  induction s generalizing j m with
  | nil =>
    intro auth a hs hm ha hal h1 h2
    rcases Nat.even_or_odd' m with ⟨q, rfl | rfl⟩
    · refine ⟨_, _, _, treehashMerge_stop _ _ _ _ _ _ _ _ hs.inv_even.heights, IsStk.odd hs.inv_even, ha, hal, ?_⟩
      intro k hk
      by_cases hkj : k ≤ j
      · exact h1 k hkj hk
      · intro hd
        apply h2 k (by omega) hk
        rcases Nat.lt_or_ge idx ((Rfc.Suite.sibling (leafIdx / 2 ^ k) + 1) * 2 ^ k) with hlt | hge
        · exfalso
          have heq : (Rfc.Suite.sibling (leafIdx / 2 ^ k) + 1) * 2 ^ k = idx + 1 := by omega
          obtain ⟨e, rfl⟩ : ∃ e, k = j + 1 + e := ⟨k - j - 1, by omega⟩
          rw [hm] at heq
          have h3 : 2 ^ j * (2 * ((Rfc.Suite.sibling (leafIdx / 2 ^ (j + 1 + e)) + 1) * 2 ^ e)) = 2 ^ j * (2 * q + 1) := by
            rw [← heq, pow_add, pow_add]; ring
          have := Nat.eq_of_mul_eq_mul_left (Nat.two_pow_pos j) h3
          omega
        · exact hge
    · obtain ⟨s', h, _⟩ := hs.inv_odd; simp at h
  | cons top rest ih =>
    intro auth a hs hm ha hal h1 h2
    rcases Nat.even_or_odd' m with ⟨q, rfl | rfl⟩
    · refine ⟨_, _, _, treehashMerge_stop _ _ _ _ _ _ _ _ hs.inv_even.heights, IsStk.odd hs.inv_even, ha, hal, ?_⟩
      intro k hk
      by_cases hkj : k ≤ j
      · exact h1 k hkj hk
      · intro hd
        apply h2 k (by omega) hk
        rcases Nat.lt_or_ge idx ((Rfc.Suite.sibling (leafIdx / 2 ^ k) + 1) * 2 ^ k) with hlt | hge
        · exfalso
          have heq : (Rfc.Suite.sibling (leafIdx / 2 ^ k) + 1) * 2 ^ k = idx + 1 := by omega
          obtain ⟨e, rfl⟩ : ∃ e, k = j + 1 + e := ⟨k - j - 1, by omega⟩
          rw [hm] at heq
          have h3 : 2 ^ j * (2 * ((Rfc.Suite.sibling (leafIdx / 2 ^ (j + 1 + e)) + 1) * 2 ^ e)) = 2 ^ j * (2 * q + 1) := by
            rw [← heq, pow_add, pow_add]; ring
          have := Nat.eq_of_mul_eq_mul_left (Nat.two_pow_pos j) h3
          omega
        · exact hge
    · obtain ⟨s', h, hs'⟩ := hs.inv_odd
      simp only [List.cons.injEq] at h
      obtain ⟨rfl, rfl⟩ := h
      have hm' : idx + 1 = 2 ^ (j + 1) * (q + 1) := by rw [hm, pow_succ]; ring
      have hdiv := div_of_succ_eq hm'
      have hsh : idx >>> (j + 1) = q := by rw [Nat.shiftRight_eq_div_pow, hdiv]
      have hval := thashH_tree (H := H) (p := p) (a := setTreeIndex (setTreeHeight a j) q) (height := j) (index := q)
        ⟨ha.h0, ha.h1, ha.h2, ha.h3, ha.h4⟩ rfl rfl hH (l := N j (2 * q)) (r := N j (2 * q + 1))
        (by rw [hN]; exact node_length g hH _ _ _ _ _ _) pubSeed
      have hadr := thashH_addr (H := H) (p := p) (N j (2 * q) ++ N j (2 * q + 1)) pubSeed
        (setTreeIndex (setTreeHeight a j) q)
      have hnode : (suiteOf p H).randHash pubSeed (Rfc.Suite.treeAdrs layer tree j q) (N j (2 * q)) (N j (2 * q + 1)) =
          N (j + 1) q := by rw [hN]; rfl
      rw [hnode] at hval
      rw [treehashMerge, if_pos rfl, hsh]
      simp only [hval, hadr]
      -- the write to the authentication path
      have hxor : (leafIdx >>> (j + 1)) ^^^ 1 = Rfc.Suite.sibling (leafIdx / 2 ^ (j + 1)) := by
        rw [xor_one_eq_sibling, Nat.shiftRight_eq_div_pow]
      rw [hxor]
      have hw : ∃ auth', (if Rfc.Suite.sibling (leafIdx / 2 ^ (j + 1)) = q then setAuth auth (j + 1) (N (j + 1) q)
          else some auth) = some auth' ∧ auth'.length = p.tree_height ∧
          (∀ k ≤ j + 1, k < p.tree_height → AuthOk N leafIdx (idx + 1) k auth') ∧
          (∀ k, j + 1 < k → k < p.tree_height → AuthOk N leafIdx idx k auth') := by
        by_cases hc : Rfc.Suite.sibling (leafIdx / 2 ^ (j + 1)) = q
        · rw [if_pos hc]
          have hjH : j + 1 < p.tree_height := by
            by_contra hcon
            have hle : 2 ^ p.tree_height ≤ 2 ^ (j + 1) := Nat.pow_le_pow_right (by omega) (by omega)
            have hz : leafIdx / 2 ^ (j + 1) = 0 := Nat.div_eq_of_lt (by omega)
            have hz2 : idx / 2 ^ (j + 1) = 0 := Nat.div_eq_of_lt (by omega)
            rw [hz] at hc
            simp [Rfc.Suite.sibling] at hc
            omega
          rw [setAuth_some (by omega)]
          refine ⟨_, rfl, by simpa using hal, ?_, ?_⟩
          · intro k hk hkH hd
            rw [getD_set]
            by_cases hkj : j + 1 = k
            · subst hkj
              rw [if_pos ⟨rfl, by omega⟩, hc]
            · rw [if_neg (by tauto)]
              exact h1 k (by omega) hkH hd
          · intro k hk hkH hd
            rw [getD_set, if_neg (by omega)]
            exact h2 k (by omega) hkH hd
        · rw [if_neg hc]
          refine ⟨_, rfl, hal, ?_, ?_⟩
          · intro k hk hkH
            by_cases hkj : k ≤ j
            · exact h1 k hkj hkH
            · have : k = j + 1 := by omega
              subst this
              intro hd
              apply h2 (j + 1) (by omega) hkH
              rcases Nat.lt_or_ge idx ((Rfc.Suite.sibling (leafIdx / 2 ^ (j + 1)) + 1) * 2 ^ (j + 1)) with hlt | hge
              · exfalso
                apply hc
                have heq : (Rfc.Suite.sibling (leafIdx / 2 ^ (j + 1)) + 1) * 2 ^ (j + 1) = idx + 1 := by omega
                rw [hm', mul_comm] at heq
                have := Nat.eq_of_mul_eq_mul_left (Nat.two_pow_pos (j + 1)) heq
                omega
              · exact hge
          · intro k hk hkH
            exact h2 k (by omega) hkH
      obtain ⟨auth', hw1, hw2, hw3, hw4⟩ := hw
      rw [hw1]
      obtain ⟨s'', auth'', a'', r1, r2, r3, r4, r5⟩ := ih (j + 1) q auth'
        { setTreeIndex (setTreeHeight a j) q with a7 := 2 } hs' hm' ⟨ha.h0, ha.h1, ha.h2, ha.h3, ha.h4⟩ hw2 hw3 hw4
      refine ⟨s'', auth'', a'', ?_, ?_, r3, r4, r5⟩
      · simpa using r1
      · have : 2 * q + 1 + 1 = 2 * (q + 1) := by ring
        rw [this]
        exact IsStk.even r2

theorem treehashLoop_eq (g : p.Good) (hH : ∀ x, (H x).length = p.n) {layer tree : Nat} (skSeed pubSeed : Bytes)
    {leafIdx : Nat} (hleaf : leafIdx < 2 ^ p.tree_height)
    {N : Nat → Nat → Bytes} (hN : N = (suiteOf p H).node skSeed pubSeed layer tree) :
    ∀ (k idx : Nat) (s : List (Bytes × Nat)) (auth : List Bytes) (ots lt nd : Addr) (o1 o2 : Nat),
      idx + k = 2 ^ p.tree_height → IsStk N 0 idx s → IsOts ots layer tree o1 → IsLtree lt layer tree o2 →
      IsTree nd layer tree → auth.length = p.tree_height →
      (∀ k < p.tree_height, AuthOk N leafIdx idx k auth) →
      ∃ s' auth', treehashLoop H p skSeed pubSeed leafIdx k idx s auth ots lt nd = some (s', auth') ∧
        IsStk N 0 (2 ^ p.tree_height) s' ∧ auth'.length = p.tree_height ∧
        (∀ k < p.tree_height, AuthOk N leafIdx (2 ^ p.tree_height) k auth') := by
  intro k
  induction k with
  | zero =>
    intro idx s auth ots lt nd o1 o2 hk hs _ _ _ hal hauth
    have : idx = 2 ^ p.tree_height := by omega
    subst this
    exact ⟨s, auth, rfl, hs, hal, hauth⟩
  | succ k ih =>
    intro idx s auth ots lt nd o1 o2 hk hs hots hlt hnd hal hauth
    have hidx : idx < 2 ^ p.tree_height := by omega
    have hleaf' := genLeafWots_eq g hH (layer := layer) (tree := tree) (i := idx) skSeed pubSeed
      (setLtreeAddr lt idx) (setOtsAddr ots idx)
      ⟨hlt.h0, hlt.h1, hlt.h2, hlt.h3, rfl⟩ ⟨hots.h0, hots.h1, hots.h2, hots.h3, rfl⟩
    obtain ⟨l1, _, l3, l4⟩ := hleaf'
    have hl : (suiteOf p H).leaf skSeed pubSeed layer tree idx = N 0 idx := by rw [hN]; rfl
    rw [hl] at l1
    rw [treehashLoop]
    simp only [l1, xor_one_eq_sibling]
    have hslen := hs.length_le p.tree_height hidx
    rw [if_neg (by omega)]
    have hthp := g.th_pos
    have hw : ∃ auth', (if Rfc.Suite.sibling leafIdx = idx then setAuth auth 0 (N 0 idx)
        else some auth) = some auth' ∧ auth'.length = p.tree_height ∧
        (∀ k ≤ 0, k < p.tree_height → AuthOk N leafIdx (idx + 1) k auth') ∧
        (∀ k, 0 < k → k < p.tree_height → AuthOk N leafIdx idx k auth') := by
      by_cases hc : Rfc.Suite.sibling leafIdx = idx
      · rw [if_pos hc, setAuth_some (by omega)]
        refine ⟨_, rfl, by simpa using hal, ?_, ?_⟩
        · intro k hk hkH hd
          have : k = 0 := by omega
          subst this
          rw [getD_set, if_pos ⟨rfl, by omega⟩, pow_zero, Nat.div_one, hc]
        · intro k hk hkH hd
          rw [getD_set, if_neg (by omega)]
          exact hauth k hkH hd
      · rw [if_neg hc]
        refine ⟨_, rfl, hal, ?_, ?_⟩
        · intro k hk hkH hd
          have : k = 0 := by omega
          subst this
          apply hauth 0 hkH
          rw [pow_zero, Nat.div_one] at hd ⊢
          omega
        · intro k hk hkH
          exact hauth k hkH
    obtain ⟨auth', hw1, hw2, hw3, hw4⟩ := hw
    simp only [hw1]
    obtain ⟨s'', auth'', a'', r1, r2, r3, r4, r5⟩ := treehashMerge_eq g hH skSeed pubSeed hidx hleaf hN 0 idx s auth' nd hs
      (by simp) hnd hw2 hw3 hw4
    have := ih (idx + 1) s'' auth'' _ _ a'' idx idx (by omega) r2 l4 l3 r3 r4 r5
    simpa [r1] using this

/-- With all 2^H leaves consumed the stack is exactly the root. -/
theorem IsStk.full {N : Nat → Nat → Bytes} (K : Nat) : ∀ {j : Nat} {s : List (Bytes × Nat)}, IsStk N j (2 ^ K) s →
    s = [(N (j + K) 0, j + K)] := by
  induction K with
  | zero =>
    intro j s h
    obtain ⟨s', rfl, h'⟩ := IsStk.inv_odd (m := 0) (by simpa using h)
    rw [h'.of_zero rfl]; simp
  | succ K ih =>
    intro j s h
    rw [pow_succ, mul_comm] at h
    have := ih h.inv_even
    rw [this]
    have : j + 1 + K = j + (K + 1) := by ring
    rw [this]

theorem sibling_lt {x K : Nat} (hK : 0 < K) (h : x < 2 ^ K) : Rfc.Suite.sibling x < 2 ^ K := by
  obtain ⟨K, rfl⟩ : ∃ k, K = k + 1 := ⟨K - 1, by omega⟩
  unfold Rfc.Suite.sibling
  rw [pow_succ] at *
  split <;> omega

/-- `treehash` returns the root of the tree and the authentication path of `leafIdx`. -/
theorem treehash_eq (g : p.Good) (hH : ∀ x, (H x).length = p.n) {layer tree : Nat} (skSeed pubSeed : Bytes)
    {leafIdx : Nat} (hleaf : leafIdx < 2 ^ p.tree_height) (sub : Addr) (auth0 : List Bytes)
    (h0 : sub.a0 = UInt32.ofNat layer) (h1 : sub.a1 = UInt32.ofNat (tree >>> 32)) (h2 : sub.a2 = UInt32.ofNat tree)
    (hal : auth0.length = p.tree_height) :
    treehash H p skSeed pubSeed leafIdx sub auth0 =
      some ((suiteOf p H).treeRoot skSeed pubSeed layer tree,
        (suiteOf p H).authPath skSeed pubSeed layer tree leafIdx) := by
  obtain ⟨s, auth, r1, r2, r3, r4⟩ := treehashLoop_eq g hH (layer := layer) (tree := tree) skSeed pubSeed hleaf rfl
    (2 ^ p.tree_height) 0 [] auth0 (setType (copySubtreeAddr Addr.zero sub) typeOts)
    (setType (copySubtreeAddr Addr.zero sub) typeLtree) (setType (copySubtreeAddr Addr.zero sub) typeHashtree) 0 0
    (by simp) (IsStk.nil 0) ⟨h0, h1, h2, rfl, rfl⟩ ⟨h0, h1, h2, rfl, rfl⟩ ⟨h0, h1, h2, rfl, rfl⟩ hal
    (by intro k hk hd
        have : 0 < (Rfc.Suite.sibling (leafIdx / 2 ^ k) + 1) * 2 ^ k := by positivity
        omega)
  have hs := r2.full p.tree_height
  rw [treehash]
  simp only [r1, hs, Option.bind_eq_bind, Option.bind_some, List.getLast?_singleton]
  congr 2
  · rw [Rfc.Suite.treeRoot, g.hp_eq, Nat.zero_add]
  · apply ext_getD
    · simp [Rfc.Suite.authPath, g.hp_eq, r3]
    · intro k hk
      rw [r3] at hk
      have hpow : 2 ^ p.tree_height = 2 ^ (p.tree_height - k) * 2 ^ k := by rw [← pow_add]; congr 1; omega
      have hlk : leafIdx / 2 ^ k < 2 ^ (p.tree_height - k) := by
        apply Nat.div_lt_of_lt_mul
        rw [mul_comm, ← hpow]; exact hleaf
      have := r4 k hk (by
        rw [hpow]
        apply Nat.mul_le_mul_right
        exact sibling_lt (by omega) hlk)
      rw [this, Rfc.Suite.authPath, g.hp_eq]
      simp [List.getD_eq_getElem?_getD, List.getElem?_range hk]

/-! ### compute_root -/

theorem arrange_eq (i : Nat) (x a : Bytes) : arrange i x a = if i % 2 = 0 then x ++ a else a ++ x := by
  unfold arrange
  rw [Nat.and_one_is_mod]
  rcases Nat.mod_two_eq_zero_or_one i with h | h <;> simp [h]

theorem computeRootLoop_eq (hH : ∀ x, (H x).length = p.n) {layer tree : Nat} (pubSeed : Bytes) :
    ∀ (auth : List Bytes) (k i : Nat) (x a : Bytes) (nd : Addr), IsTree nd layer tree →
      x.length = p.n → a.length = p.n → (∀ y ∈ auth, y.length = p.n) →
      (computeRootLoop H p pubSeed k i auth (arrange i x a) nd).1 =
        (suiteOf p H).climb pubSeed layer tree k i x (a :: auth) ∧
      (computeRootLoop H p pubSeed k i auth (arrange i x a) nd).1.length = p.n ∧
      IsTree (computeRootLoop H p pubSeed k i auth (arrange i x a) nd).2 layer tree := by
  intro auth
  induction auth with
  | nil =>
    intro k i x a nd hnd hx ha _
    have ht : ∀ k j, IsTree (setTreeIndex (setTreeHeight nd k) j) layer tree :=
      fun k j => ⟨hnd.h0, hnd.h1, hnd.h2, hnd.h3, hnd.h4⟩
    rw [computeRootLoop, Rfc.Suite.climb, Rfc.Suite.climb]
    have hsh : i >>> 1 = i / 2 := by simp [Nat.shiftRight_eq_div_pow]
    rw [hsh]
    refine ⟨?_, hH _, ?_⟩
    swap
    · rw [thashH_addr]; exact ⟨hnd.h0, hnd.h1, hnd.h2, hnd.h3, hnd.h4⟩
    rw [arrange_eq]
    split
    · exact thashH_tree (ht k (i / 2)) rfl rfl hH hx pubSeed
    · exact thashH_tree (ht k (i / 2)) rfl rfl hH ha pubSeed
  | cons b auth ih =>
    intro k i x a nd hnd hx ha hau
    have ht : ∀ k j, IsTree (setTreeIndex (setTreeHeight nd k) j) layer tree :=
      fun k j => ⟨hnd.h0, hnd.h1, hnd.h2, hnd.h3, hnd.h4⟩
    rw [computeRootLoop, Rfc.Suite.climb]
    have hsh : i >>> 1 = i / 2 := by simp [Nat.shiftRight_eq_div_pow]
    have hval : (thashH H p (arrange i x a) pubSeed (setTreeIndex (setTreeHeight nd k) (i / 2))).1 =
        (if i % 2 = 0 then (suiteOf p H).randHash pubSeed (Rfc.Suite.treeAdrs layer tree k (i / 2)) x a
         else (suiteOf p H).randHash pubSeed (Rfc.Suite.treeAdrs layer tree k (i / 2)) a x) := by
      rw [arrange_eq]
      split
      · exact thashH_tree (ht k (i / 2)) rfl rfl hH hx pubSeed
      · exact thashH_tree (ht k (i / 2)) rfl rfl hH ha pubSeed
    simp only [hsh]
    rw [← hval]
    exact ih (k + 1) (i / 2) _ b _ (by rw [thashH_addr]; exact ⟨hnd.h0, hnd.h1, hnd.h2, hnd.h3, hnd.h4⟩) (hH _) (hau b (by simp))
      (fun y hy => hau y (by simp [hy]))

theorem computeRoot_eq (hH : ∀ x, (H x).length = p.n) {layer tree : Nat} (pubSeed : Bytes) {auth : List Bytes}
    (i : Nat) {x : Bytes} (nd : Addr) (hnd : IsTree nd layer tree) (hne : auth ≠ [])
    (hx : x.length = p.n) (hau : ∀ y ∈ auth, y.length = p.n) :
    ∃ nd', computeRoot H p x i auth pubSeed nd = some ((suiteOf p H).climb pubSeed layer tree 0 i x auth, nd') ∧
      IsTree nd' layer tree ∧ ((suiteOf p H).climb pubSeed layer tree 0 i x auth).length = p.n := by
  cases auth with
  | nil => exact absurd rfl hne
  | cons a auth =>
    have := computeRootLoop_eq (H := H) (p := p) hH pubSeed auth 0 i x a nd hnd hx (hau a (by simp))
      (fun y hy => hau y (by simp [hy]))
    exact ⟨_, by rw [computeRoot, ← this.1], this.2.2, by rw [← this.1]; exact this.2.1⟩

end Xmss
