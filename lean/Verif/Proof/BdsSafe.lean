import Verif.Proof.BdsRound
/-
`bds_round` on an arbitrary state of the right sizes: always defined, and what it does to the authentication path.
-/
namespace Xmss

variable {H : Bytes → Bytes} {p : Params}

/-- Length of a tree hash. -/
theorem thashH_length (hH : ∀ x, (H x).length = p.n) (x pubSeed : Bytes) (a : Addr) : (thashH H p x pubSeed a).1.length = p.n := by
  rw [thashH]; exact hH _

/-- `bds_round` on any state: defined; instance nodes stay; at odd leaves the node of instance 0 becomes the first
authentication node. -/
theorem bdsRound_safe_all {skSeed pubSeed : Bytes} {layer tree : Nat} {N : Nat → Nat → Bytes} {addr : Addr}
    (ctx : TreeCtx H p skSeed pubSeed layer tree N) (hH : ∀ x, (H x).length = p.n) (hth : p.tree_height < 31) (hK : p.bds_k ≤ p.tree_height)
    (ha : IsSub addr layer tree) {φ : Nat} {s : BdsState} (sh : Shape p s) (hφ : φ + 1 < 2 ^ p.tree_height) :
    ∃ s', bdsRound H p s φ skSeed pubSeed addr = some s' ∧ Shape p s' ∧
      s'.stack = s.stack ∧ s'.stacklevels = s.stacklevels ∧ s'.stackoffset = s.stackoffset ∧ s'.nextLeaf = s.nextLeaf ∧
      s'.treehash.map (·.node) = s.treehash.map (·.node) ∧
      (∀ i < p.insts, 2 ^ (i + 1) ∣ φ + 1 → s'.auth[i]? = s.treehash[i]?.map (·.node)) ∧
      s'.leaves = s.leaves + (if φ % 2 = 0 then 1 else 0) ∧
      ∃ tau m, φ + 1 = 2 ^ tau * (2 * m + 1) ∧ ∀ j t, s.treehash[j]? = some t → s'.treehash[j]? = some
        (if j < tau ∧ j < p.insts ∧ φ + 1 + 3 * 2 ^ j < 2 ^ p.tree_height then
          { t with h := j, nextIdx := φ + 1 + 3 * 2 ^ j, completed := 0, stackusage := 0 } else t) := by
  obtain ⟨tau, m, ht1, ht2, ht3⟩ := tauLoop_eq (φ := φ) p.tree_height 0 (by simp) (by rw [Nat.zero_add]; exact hφ)
  rw [Nat.zero_add] at ht2
  have hM : p.insts ≤ p.tree_height := Nat.sub_le _ _
  have htl : tau < s.auth.length := by rw [sh.auth_len]; exact ht2
  obtain ⟨keep', hkeep, hkl, hkm⟩ : ∃ keep', (if (φ >>> (tau + 1)) &&& 1 = 0 ∧ tau < p.tree_height - 1 then do
        let a ← s.auth[tau]?
        let keep ← setA s.keep (tau >>> 1) a
        some { s with keep := keep }
      else some s : Option BdsState) = some { s with keep := keep' } ∧ keep'.length = s.keep.length ∧
      (∀ x ∈ keep', x.length = p.n) := by
    split
    · rename_i hc
      have hkl : tau >>> 1 < s.keep.length := by
        rw [sh.keep_len, Nat.shiftRight_one]; omega
      rw [List.getElem?_eq_getElem htl]
      simp only [Option.bind_eq_bind, Option.bind_some]
      rw [setA_some hkl]
      exact ⟨_, rfl, by simp, forall_mem_set sh.keep_mem (sh.auth_mem _ (List.getElem_mem _))⟩
    · exact ⟨s.keep, rfl, rfl, sh.keep_mem⟩
  have sh1 : Shape p { s with keep := keep' } :=
    { sh with keep_len := hkl.trans sh.keep_len, keep_mem := hkm }
  rw [bdsRound]
  simp only [ht1]
  by_cases h0 : tau = 0
  · subst h0
    have hφ2 : φ % 2 = 0 := by have := (carry_top ht3).1; simp at this; omega
    rw [if_neg (by omega)]
    simp only [Option.bind_eq_bind, Option.bind_some]
    simp only [Option.bind_eq_bind] at hkeep
    rw [hkeep]
    simp only [Option.bind_some, if_true]
    rw [setA_some htl]
    simp only [Option.bind_some]
    have hleaf := (ctx.leaf (ltreeOf addr) (otsOf addr) φ 0 0 ha.ltree ha.ots).1
    rw [hleaf]
    refine ⟨_, rfl, ?_, rfl, rfl, rfl, rfl, rfl, fun i _ h => absurd h (carry_not_dvd ht3 (by omega)), by rw [if_pos hφ2], 0, m, ht3, fun j t ht => by
      rw [if_neg (by omega)]; exact ht⟩
    exact { sh1 with auth_len := by simpa using sh.auth_len, auth_mem := forall_mem_set sh.auth_mem (ctx.len _ _) }
  · have htl1 : tau - 1 < s.auth.length := by omega
    have hkl1 : (tau - 1) >>> 1 < s.keep.length := by rw [sh.keep_len, Nat.shiftRight_one]; omega
    rw [if_pos (by omega), List.getElem?_eq_getElem htl1, List.getElem?_eq_getElem hkl1]
    simp only [Option.bind_eq_bind, Option.bind_some]
    simp only [Option.bind_eq_bind] at hkeep
    rw [hkeep]
    simp only [Option.bind_some, if_neg h0]
    rw [setA_some htl]
    simp only [Option.bind_some]
    set nd := (thashH H p (s.auth[tau - 1] ++ s.keep[(tau - 1) >>> 1]) pubSeed
      (setTreeIndex (setTreeHeight (nodeOf addr) (tau - 1)) (φ >>> tau))).1 with hnd
    have sh2 : Shape p { s with keep := keep', auth := s.auth.set tau nd } :=
      { sh1 with auth_len := by simpa using sh.auth_len,
                 auth_mem := forall_mem_set sh.auth_mem (by rw [hnd]; exact thashH_length hH _ _ _) }
    -- the node the loop copies to level j
    let f : Nat → Bytes := fun j =>
      if j < p.insts then ((s.treehash[j]?.map (·.node)).getD (List.replicate p.n 0))
      else (s.retain[(1 <<< (p.tree_height - 1 - j)) + j - p.tree_height + (((φ >>> j) - 1) >>> 1)]?).getD (List.replicate p.n 0)
    have hf : ∀ i, (f i).length = p.n := by
      intro i
      simp only [f]
      split
      · cases h : s.treehash[i]? with
        | none => simp
        | some t => simpa using (sh.insts_mem t (List.mem_of_getElem? h)).2.2.2.2
      · cases h : s.retain[(1 <<< (p.tree_height - 1 - i)) + i - p.tree_height + (((φ >>> i) - 1) >>> 1)]? with
        | none => simp
        | some t => simpa using sh.retain_mem t (List.mem_of_getElem? h)
    obtain ⟨auth', r1, r2, r3⟩ := authLoop_eq (p := p) (φ := φ) (f := f) hf tau 0
      { s with keep := keep', auth := s.auth.set tau nd } sh2 (by omega)
      (by
        intro j _ hj hjM
        have hjl : j < s.treehash.length := by rw [sh.insts_len]; exact hjM
        refine ⟨s.treehash[j], List.getElem?_eq_getElem hjl, ?_⟩
        simp only [f, if_pos hjM, List.getElem?_eq_getElem hjl, Option.map_some, Option.getD_some])
      (by
        intro j _ hj hjM
        simp only [f, if_neg (show ¬ j < p.insts by omega)]
        obtain ⟨q', e1, e2, e3, e4, e5⟩ := carry_low ht3 (i := j) (by omega)
        have hlt : (1 <<< (p.tree_height - 1 - j)) + j - p.tree_height + (((φ >>> j) - 1) >>> 1) < s.retain.length := by
          rw [sh.retain_len, Nat.shiftRight_eq_div_pow φ j, e2, Nat.one_shiftLeft, Nat.shiftRight_one]
          have := retainSlot_lt (K := p.bds_k) (Hh := p.tree_height) (i := j) (r := q') hK hjM (by omega) (by
            rw [e5, show p.tree_height = j + 1 + (p.tree_height - j - 1) by omega, pow_add 2 (j + 1)] at hφ
            have := Nat.lt_of_mul_lt_mul_left hφ
            rw [show p.tree_height - j = p.tree_height - j - 1 + 1 by omega, pow_succ]
            omega)
          unfold retainSlot at this
          omega
        rw [List.getElem?_eq_getElem hlt, Option.getD_some])
    rw [Nat.zero_add] at r3
    rw [r1]
    simp only [Option.bind_some]
    obtain ⟨ths, g1, g2, g3⟩ := restartLoop_eq (p := p) (φ := φ) hth (if tau < p.insts then tau else p.insts) 0
      { s with keep := keep', auth := auth' } r2 (by split <;> omega)
    rw [g1]
    have hφ1 : φ % 2 = 1 := by
      obtain ⟨k, rfl⟩ : ∃ k, tau = k + 1 := ⟨tau - 1, by omega⟩
      rw [pow_succ, mul_comm (2 ^ k), mul_assoc] at ht3
      omega
    refine ⟨_, rfl, g2, rfl, rfl, rfl, rfl, ?_, ?_, by rw [if_neg (by omega)]; rfl, tau, m, ht3, ?_⟩
    · simp only
      apply List.ext_getElem?
      intro j
      rw [List.getElem?_map, List.getElem?_map]
      by_cases hj : j < p.insts
      · have hjl : j < s.treehash.length := by rw [sh.insts_len]; exact hj
        rw [g3 j s.treehash[j] (List.getElem?_eq_getElem hjl), List.getElem?_eq_getElem hjl]
        simp only [Option.map_some]
        congr 1
        rw [apply_ite TreehashInst.node]
        simp only [ite_self]
      · have h1 := g2.insts_len
        simp only at h1
        rw [List.getElem?_eq_none (by omega), List.getElem?_eq_none (by rw [sh.insts_len]; omega)]
    · intro i hpos hdv
      simp only
      have := (carry_dvd ht3).mp hdv
      rw [r3 i, if_pos ⟨Nat.zero_le _, by omega⟩]
      have hjl : i < s.treehash.length := by rw [sh.insts_len]; exact hpos
      simp only [f, if_pos hpos, List.getElem?_eq_getElem hjl, Option.map_some, Option.getD_some]
    · intro j t ht
      rw [g3 j t ht]
      congr 1
      have : (0 ≤ j ∧ j < 0 + (if tau < p.insts then tau else p.insts) ∧ φ + 1 + 3 * 2 ^ j < 2 ^ p.tree_height) ↔
          (j < tau ∧ j < p.insts ∧ φ + 1 + 3 * 2 ^ j < 2 ^ p.tree_height) := by
        split <;> omega
      simp only [this]

theorem bdsRound_safe {skSeed pubSeed : Bytes} {layer tree : Nat} {N : Nat → Nat → Bytes} {addr : Addr}
    (ctx : TreeCtx H p skSeed pubSeed layer tree N) (hH : ∀ x, (H x).length = p.n) (hth : p.tree_height < 31) (hK : p.bds_k ≤ p.tree_height)
    (ha : IsSub addr layer tree) {φ : Nat} {s : BdsState} (sh : Shape p s) (hφ : φ + 1 < 2 ^ p.tree_height) :
    ∃ s', bdsRound H p s φ skSeed pubSeed addr = some s' ∧ Shape p s' ∧
      s'.stack = s.stack ∧ s'.stacklevels = s.stacklevels ∧ s'.stackoffset = s.stackoffset ∧ s'.nextLeaf = s.nextLeaf ∧
      s'.treehash.map (·.node) = s.treehash.map (·.node) ∧
      (φ % 2 = 1 → 0 < p.insts → s'.auth[0]? = s.treehash[0]?.map (·.node)) ∧
      s'.leaves = s.leaves + (if φ % 2 = 0 then 1 else 0) ∧
      ∃ tau m, φ + 1 = 2 ^ tau * (2 * m + 1) ∧ ∀ j t, s.treehash[j]? = some t → s'.treehash[j]? = some
        (if j < tau ∧ j < p.insts ∧ φ + 1 + 3 * 2 ^ j < 2 ^ p.tree_height then
          { t with h := j, nextIdx := φ + 1 + 3 * 2 ^ j, completed := 0, stackusage := 0 } else t) := by
  obtain ⟨s', h1, h2, h3, h4, h5, h6, h7, h8, h9⟩ := bdsRound_safe_all ctx hH hth hK ha sh hφ
  exact ⟨s', h1, h2, h3, h4, h5, h6, h7, fun h hp => h8 0 hp (by omega), h9⟩

end Xmss
