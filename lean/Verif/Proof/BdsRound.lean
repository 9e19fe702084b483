import Verif.Proof.BdsUpdate
/-
`bds_round`: from the state for leaf `φ` to the state for leaf `φ + 1`.
-/
namespace Xmss
open Sched

variable {H : Bytes → Bytes} {p : Params}

/-- Slot of `retain` for right node `2 * r + 3` of height `i`. -/
def retainSlot (Hh i r : Nat) : Nat := 2 ^ (Hh - 1 - i) + i - Hh + r

/-- The `retain` array holds the right nodes (from number 3 on) of the upper levels. -/
def RetainOk (p : Params) (N : Nat → Nat → Bytes) (s : BdsState) : Prop :=
  ∀ i r, p.insts ≤ i → i < p.tree_height → 2 * r + 3 < 2 ^ (p.tree_height - i) →
    s.retain[retainSlot p.tree_height i r]? = some (N i (2 * r + 3))

/-- The state of one tree while the current leaf is `φ`. -/
structure TreeInv (p : Params) (N : Nat → Nat → Bytes) (base : List (Bytes × Nat)) (φ : Nat) (pr : Nat → Nat)
    (seg : Nat → List (Bytes × Nat)) (s : BdsState) : Prop where
  work : WorkInv p N base φ pr seg s
  auth : ∀ i < p.tree_height, s.auth[i]? = some (N i (Rfc.Suite.sibling (φ / 2 ^ i)))
  keep : ∀ j, j + 1 < p.tree_height → φ / 2 ^ j % 2 = 1 → φ / 2 ^ (j + 1) % 2 = 0 → s.keep[j / 2]? = some (N j (φ / 2 ^ j))
  retain : RetainOk p N s

theorem tauLoop_eq {φ : Nat} : ∀ (k i : Nat), 2 ^ i ∣ φ + 1 → φ + 1 < 2 ^ (i + k) →
    ∃ tau m, tauLoop φ k i = tau ∧ tau < i + k ∧ φ + 1 = 2 ^ tau * (2 * m + 1) := by
  intro k
  induction k with
  | zero =>
    intro i h1 h2
    have := Nat.le_of_dvd (by omega) h1
    simp only [Nat.add_zero] at h2
    omega
  | succ k ih =>
    intro i h1 h2
    obtain ⟨c, hc⟩ := h1
    have hc0 : c ≠ 0 := fun h => by rw [h] at hc; omega
    have hs : φ >>> i = c - 1 := by
      rw [Nat.shiftRight_eq_div_pow]
      apply div_of_succ_eq
      rw [hc]
      congr 1
      omega
    rw [tauLoop, Nat.and_one_is_mod, hs]
    by_cases hp : (c - 1) % 2 = 0
    · rw [if_pos hp]
      exact ⟨i, (c - 1) / 2, rfl, by omega, by rw [hc]; congr 1; omega⟩
    · rw [if_neg hp]
      obtain ⟨tau, m, r1, r2, r3⟩ := ih (i + 1) ⟨c / 2, by rw [hc, pow_succ, mul_assoc]; congr 1; omega⟩
        (by rw [show i + 1 + k = i + (k + 1) by omega]; exact h2)
      exact ⟨tau, m, r1, by omega, r3⟩

/-- Numbers around a carry chain: `φ + 1 = 2^tau * (2 * m + 1)`. -/
theorem carry_low {φ tau m : Nat} (h : φ + 1 = 2 ^ tau * (2 * m + 1)) {i : Nat} (hi : i < tau) :
    ∃ q, φ / 2 ^ (i + 1) = q ∧ φ / 2 ^ i = 2 * q + 1 ∧ (φ + 1) / 2 ^ i = 2 * q + 2 ∧ (φ + 1) / 2 ^ (i + 1) = q + 1 ∧
      φ + 1 = 2 ^ (i + 1) * (q + 1) := by
  obtain ⟨e, rfl⟩ : ∃ e, tau = i + 1 + e := ⟨tau - i - 1, by omega⟩
  have hpos : 0 < 2 ^ e * (2 * m + 1) := by positivity
  have h' : φ + 1 = 2 ^ (i + 1) * (2 ^ e * (2 * m + 1) - 1 + 1) := by
    rw [Nat.sub_add_cancel hpos, h, pow_add]; ring
  obtain ⟨q, hq⟩ : ∃ q, 2 ^ e * (2 * m + 1) - 1 = q := ⟨_, rfl⟩
  rw [hq] at h'
  refine ⟨q, div_of_succ_eq h', div_of_succ_eq (by rw [h', pow_succ]; ring), ?_, ?_, h'⟩
  · rw [h', show 2 ^ (i + 1) * (q + 1) = (2 * q + 2) * 2 ^ i by ring]
    exact Nat.mul_div_cancel _ (Nat.two_pow_pos _)
  · rw [h', Nat.mul_div_cancel_left _ (Nat.two_pow_pos _)]

theorem carry_top {φ tau m : Nat} (h : φ + 1 = 2 ^ tau * (2 * m + 1)) :
    φ / 2 ^ tau = 2 * m ∧ (φ + 1) / 2 ^ tau = 2 * m + 1 :=
  ⟨div_of_succ_eq h, by rw [h, Nat.mul_div_cancel_left _ (Nat.two_pow_pos _)]⟩

theorem carry_not_dvd {φ tau m : Nat} (h : φ + 1 = 2 ^ tau * (2 * m + 1)) {i : Nat} (hi : tau < i) : ¬ 2 ^ i ∣ φ + 1 := by
  intro hd
  have h1 : 2 ^ (tau + 1) ∣ φ + 1 := (pow_dvd_pow 2 hi).trans hd
  rw [h, pow_succ] at h1
  have := Nat.dvd_of_mul_dvd_mul_left (Nat.two_pow_pos tau) h1
  omega

theorem carry_dvd {φ tau m : Nat} (h : φ + 1 = 2 ^ tau * (2 * m + 1)) {i : Nat} : 2 ^ i ∣ φ + 1 ↔ i ≤ tau := by
  constructor
  · intro hd
    by_contra hc
    exact carry_not_dvd h (by omega) hd
  · intro hi
    rw [h]
    exact (pow_dvd_pow 2 hi).trans (Dvd.intro _ rfl)

theorem carry_high {φ tau m : Nat} (h : φ + 1 = 2 ^ tau * (2 * m + 1)) {i : Nat} (hi : tau < i) :
    (φ + 1) / 2 ^ i = φ / 2 ^ i := Nat.succ_div_of_not_dvd (carry_not_dvd h hi)

theorem sibling_even (q : Nat) : Rfc.Suite.sibling (2 * q) = 2 * q + 1 := by
  unfold Rfc.Suite.sibling; rw [if_pos (by omega)]
theorem sibling_odd (q : Nat) : Rfc.Suite.sibling (2 * q + 1) = 2 * q := by
  unfold Rfc.Suite.sibling; rw [if_neg (by omega)]; omega

theorem retainSlot_lt {K Hh i r : Nat} (hK : K ≤ Hh) (hi : Hh - K ≤ i) (hi' : i < Hh) (hr : 2 * r + 3 < 2 ^ (Hh - i)) :
    retainSlot Hh i r < 2 ^ K - K - 1 := by
  unfold retainSlot
  obtain ⟨m, hm⟩ : ∃ m, Hh = i + m := ⟨Hh - i, by omega⟩
  have e1 : Hh - i = m := by omega
  rw [e1] at hr
  obtain ⟨m', rfl⟩ : ∃ m', m = m' + 1 := ⟨m - 1, by omega⟩
  have e2 : Hh - 1 - i = m' := by omega
  rw [e2]
  rw [pow_succ] at hr
  have h1 : m' < 2 ^ m' := Nat.lt_two_pow_self
  -- 2^m' + i - Hh + r < 2^(m'+1) - (m'+1) - 1 ≤ 2^K - K - 1
  have hmono : 2 ^ (m' + 1) - (m' + 1) - 1 ≤ 2 ^ K - K - 1 := by
    obtain ⟨e, rfl⟩ : ∃ e, K = m' + 1 + e := ⟨K - m' - 1, by omega⟩
    clear hK hi hm hr e1 e2 hi'
    induction e with
    | zero => exact le_refl _
    | succ e ih =>
      have h2 : 2 ^ (m' + 1 + (e + 1)) = 2 * 2 ^ (m' + 1 + e) := by rw [← add_assoc, pow_succ]; ring
      have h3 : m' + 1 + e < 2 ^ (m' + 1 + e) := Nat.lt_two_pow_self
      omega
  have h2 : 2 ^ (m' + 1) = 2 * 2 ^ m' := by rw [pow_succ]; ring
  omega

/-- The loop that copies finished nodes into the authentication path. -/
theorem authLoop_eq {φ : Nat} {f : Nat → Bytes} (hf : ∀ i, (f i).length = p.n) :
    ∀ (k i : Nat) (s : BdsState), Shape p s → i + k ≤ p.tree_height →
      (∀ j, i ≤ j → j < i + k → j < p.insts → ∃ t, s.treehash[j]? = some t ∧ t.node = f j) →
      (∀ j, i ≤ j → j < i + k → p.insts ≤ j →
        s.retain[(1 <<< (p.tree_height - 1 - j)) + j - p.tree_height + (((φ >>> j) - 1) >>> 1)]? = some (f j)) →
      ∃ auth, authLoop p φ k i s = some { s with auth := auth } ∧ Shape p { s with auth := auth } ∧
        ∀ j, auth[j]? = if i ≤ j ∧ j < i + k then some (f j) else s.auth[j]? := by
  intro k
  induction k with
  | zero =>
    intro i s hs _ _ _
    refine ⟨s.auth, rfl, hs, fun j => ?_⟩
    rw [if_neg (by omega)]
  | succ k ih =>
    intro i s hs hle h1 h2
    have hnode : (if i < p.insts then do
        let t ← s.treehash[i]?
        some t.node
      else
        s.retain[(1 <<< (p.tree_height - 1 - i)) + i - p.tree_height + (((φ >>> i) - 1) >>> 1)]? : Option Bytes) = some (f i) := by
      by_cases hi : i < p.insts
      · obtain ⟨t, ht, ht'⟩ := h1 i (le_refl _) (by omega) hi
        rw [if_pos hi, ht]
        simp [ht']
      · rw [if_neg hi]
        exact h2 i (le_refl _) (by omega) (by omega)
    have hil : i < s.auth.length := by rw [hs.auth_len]; omega
    have hs' : Shape p { s with auth := s.auth.set i (f i) } :=
      { hs with auth_len := by simpa using hs.auth_len, auth_mem := forall_mem_set hs.auth_mem (hf i) }
    obtain ⟨auth, r1, r2, r3⟩ := ih (i + 1) { s with auth := s.auth.set i (f i) } hs' (by omega)
      (fun j hj hj' => h1 j (by omega) (by omega)) (fun j hj hj' => h2 j (by omega) (by omega))
    refine ⟨auth, ?_, r2, ?_⟩
    · rw [authLoop, hnode]
      simp only [Option.bind_eq_bind, Option.bind_some]
      rw [setA_some hil]
      simp only [Option.bind_some]
      exact r1
    · intro j
      rw [r3 j]
      by_cases hji : j = i
      · subst hji
        rw [if_neg (by omega), if_pos (by omega)]
        simp [hil]
      · by_cases hj : i + 1 ≤ j ∧ j < i + 1 + k
        · rw [if_pos hj, if_pos (by omega)]
        · rw [if_neg hj, if_neg (by omega)]
          simp only
          rw [List.getElem?_set_ne (Ne.symm hji)]

/-- The loop that restarts instances. -/
theorem restartLoop_eq {φ : Nat} (hth : p.tree_height < 31) :
    ∀ (k i : Nat) (s : BdsState), Shape p s → i + k ≤ p.insts →
      ∃ ths, restartLoop p φ k i s = some { s with treehash := ths } ∧ Shape p { s with treehash := ths } ∧
        ∀ j t, s.treehash[j]? = some t → ths[j]? = some (if i ≤ j ∧ j < i + k ∧ φ + 1 + 3 * 2 ^ j < 2 ^ p.tree_height then
          { t with h := j, nextIdx := φ + 1 + 3 * 2 ^ j, completed := 0, stackusage := 0 } else t) := by
  intro k
  have h31 : 2 ^ p.tree_height ≤ 2 ^ 31 := Nat.pow_le_pow_right (by omega) (by omega)
  have hM : p.insts ≤ p.tree_height := Nat.sub_le _ _
  induction k with
  | zero =>
    intro i s hs _
    refine ⟨s.treehash, rfl, hs, fun j t ht => ?_⟩
    rw [if_neg (by omega)]; exact ht
  | succ k ih =>
    intro i s hs hle
    have hil : i < s.treehash.length := by rw [hs.insts_len]; omega
    rw [restartLoop]
    simp only [Nat.one_shiftLeft]
    by_cases hst : φ + 1 + 3 * 2 ^ i < 2 ^ p.tree_height
    · rw [if_pos hst, List.getElem?_eq_getElem hil]
      simp only [Option.bind_eq_bind, Option.bind_some]
      have htm := hs.insts_mem s.treehash[i] (List.getElem_mem _)
      obtain ⟨ti, hti⟩ : ∃ ti : TreehashInst, ti = { s.treehash[i] with h := i, nextIdx := φ + 1 + 3 * 2 ^ i, completed := 0, stackusage := 0 } := ⟨_, rfl⟩
      rw [← hti]
      have hs' : Shape p { s with treehash := s.treehash.set i ti } :=
        { hs with insts_len := by simpa using hs.insts_len,
                  insts_mem := by
                    apply forall_mem_set hs.insts_mem
                    rw [hti]
                    exact ⟨by simp only; omega, by simp only; omega, by simp, by simp, htm.2.2.2.2⟩ }
      obtain ⟨ths, r1, r2, r3⟩ := ih (i + 1) { s with treehash := s.treehash.set i ti } hs' (by omega)
      refine ⟨ths, r1, r2, fun j t ht => ?_⟩
      by_cases hji : j = i
      · subst hji
        have := r3 j ti (by simp [hil])
        rw [this, if_neg (by omega), if_pos ⟨le_refl _, by omega, hst⟩, hti]
        rw [List.getElem?_eq_getElem hil] at ht
        simp only [Option.some.injEq] at ht
        rw [ht]
      · have := r3 j t (by simp only; rw [List.getElem?_set_ne (Ne.symm hji)]; exact ht)
        rw [this]
        congr 1
        by_cases hc : i + 1 ≤ j ∧ j < i + 1 + k ∧ φ + 1 + 3 * 2 ^ j < 2 ^ p.tree_height
        · rw [if_pos hc, if_pos ⟨by omega, by omega, hc.2.2⟩]
        · rw [if_neg hc, if_neg (fun h => hc ⟨by omega, by omega, h.2.2⟩)]
    · rw [if_neg hst]
      simp only [Option.bind_eq_bind, Option.bind_some]
      obtain ⟨ths, r1, r2, r3⟩ := ih (i + 1) s hs (by omega)
      refine ⟨ths, r1, r2, fun j t ht => ?_⟩
      rw [r3 j t ht]
      congr 1
      by_cases hc : i + 1 ≤ j ∧ j < i + 1 + k ∧ φ + 1 + 3 * 2 ^ j < 2 ^ p.tree_height
      · rw [if_pos hc, if_pos ⟨by omega, by omega, hc.2.2⟩]
      · rw [if_neg hc, if_neg]
        intro h
        by_cases hji : j = i
        · subst hji; exact hst h.2.2
        · exact hc ⟨by omega, by omega, h.2.2⟩

/-- `bds_round` at leaf `φ`, when the instances whose nodes are needed are finished. -/
theorem bdsRound_eq {skSeed pubSeed : Bytes} {layer tree : Nat} {N : Nat → Nat → Bytes} {addr : Addr}
    (ctx : TreeCtx H p skSeed pubSeed layer tree N) (hth : p.tree_height < 31) (ha : IsSub addr layer tree)
    {base : List (Bytes × Nat)} {φ : Nat} {pr : Nat → Nat} {seg : Nat → List (Bytes × Nat)} {s : BdsState}
    (w : TreeInv p N base φ pr seg s) (hφ : φ + 1 < 2 ^ p.tree_height)
    (hdone : ∀ i < p.insts, 2 ^ (i + 1) ∣ φ + 1 → pr i = 2 ^ i) :
    ∃ s', bdsRound H p s φ skSeed pubSeed addr = some s' ∧
      TreeInv p N base (φ + 1) (restart p.insts p.tree_height (φ + 1) pr) seg s' ∧ s'.nextLeaf = s.nextLeaf ∧
      s'.leaves = s.leaves + (if φ % 2 = 0 then 1 else 0) := by
  obtain ⟨tau, m, ht1, ht2, ht3⟩ := tauLoop_eq (φ := φ) p.tree_height 0 (by simp) (by rw [Nat.zero_add]; exact hφ)
  rw [Nat.zero_add] at ht2
  have hM : p.insts ≤ p.tree_height := Nat.sub_le _ _
  have sh := w.work.shape
  obtain ⟨hc1, hc2⟩ := carry_top ht3
  -- `keep` after the round
  obtain ⟨keep', hkeep, hkl, hkm, hkv⟩ : ∃ keep', (if (φ >>> (tau + 1)) &&& 1 = 0 ∧ tau < p.tree_height - 1 then do
        let a ← s.auth[tau]?
        let keep ← setA s.keep (tau >>> 1) a
        some { s with keep := keep }
      else some s : Option BdsState) = some { s with keep := keep' } ∧ keep'.length = s.keep.length ∧
      (∀ x ∈ keep', x.length = p.n) ∧
      (∀ j, j + 1 < p.tree_height → (φ + 1) / 2 ^ j % 2 = 1 → (φ + 1) / 2 ^ (j + 1) % 2 = 0 →
        keep'[j / 2]? = some (N j ((φ + 1) / 2 ^ j))) := by
    have hbit : (φ >>> (tau + 1)) &&& 1 = φ / 2 ^ (tau + 1) % 2 := by
      rw [Nat.and_one_is_mod, Nat.shiftRight_eq_div_pow]
    have hcase : ∀ j, j + 1 < p.tree_height → (φ + 1) / 2 ^ j % 2 = 1 → tau ≤ j := by
      intro j _ h
      by_contra hj
      obtain ⟨q, _, _, e, _⟩ := carry_low ht3 (i := j) (by omega)
      rw [e] at h; omega
    by_cases hcond : (φ >>> (tau + 1)) &&& 1 = 0 ∧ tau < p.tree_height - 1
    · rw [if_pos hcond, w.auth tau ht2]
      simp only [Option.bind_eq_bind, Option.bind_some]
      have hkl : tau >>> 1 < s.keep.length := by
        rw [sh.keep_len, Nat.shiftRight_one]
        omega
      rw [setA_some hkl]
      refine ⟨_, rfl, by simp, forall_mem_set sh.keep_mem (ctx.len _ _), ?_⟩
      intro j hj hj1 hj2
      have htj := hcase j hj hj1
      rcases Nat.eq_or_lt_of_le htj with rfl | htj
      · rw [Nat.shiftRight_one] at hkl ⊢
        rw [List.getElem?_set_self hkl, hc1, hc2, sibling_even]
      · have hne : tau >>> 1 ≠ j / 2 := by
          rw [Nat.shiftRight_one]
          intro he
          have hj' : j = tau + 1 := by omega
          subst hj'
          rw [carry_high ht3 (by omega)] at hj1
          rw [hbit] at hcond
          omega
        rw [List.getElem?_set_ne hne, carry_high ht3 htj]
        rw [carry_high ht3 htj] at hj1
        rw [carry_high ht3 (by omega)] at hj2
        exact w.keep j hj hj1 hj2
    · rw [if_neg hcond]
      refine ⟨s.keep, rfl, rfl, sh.keep_mem, ?_⟩
      intro j hj hj1 hj2
      have htj := hcase j hj hj1
      rcases Nat.eq_or_lt_of_le htj with rfl | htj
      · exfalso
        apply hcond
        rw [hbit]
        rw [carry_high ht3 (by omega)] at hj2
        exact ⟨hj2, by omega⟩
      · rw [carry_high ht3 htj] at hj1 ⊢
        rw [carry_high ht3 (by omega)] at hj2
        exact w.keep j hj hj1 hj2
  have sh1 : Shape p { s with keep := keep' } :=
    { sh with keep_len := hkl.trans sh.keep_len, keep_mem := hkm }
  -- the new authentication path
  have hauth_high : ∀ j, tau < j → j < p.tree_height → s.auth[j]? = some (N j (Rfc.Suite.sibling ((φ + 1) / 2 ^ j))) := by
    intro j hj hj'
    rw [carry_high ht3 hj]
    exact w.auth j hj'
  have htl : tau < s.auth.length := by rw [sh.auth_len]; exact ht2
  rw [bdsRound]
  simp only [ht1]
  by_cases h0 : tau = 0
  · subst h0
    rw [if_neg (by omega)]
    simp only [Option.bind_eq_bind, Option.bind_some]
    simp only [Option.bind_eq_bind] at hkeep
    rw [hkeep]
    simp only [Option.bind_some, if_true]
    rw [setA_some htl]
    simp only [Option.bind_some]
    have hleaf := (ctx.leaf (ltreeOf addr) (otsOf addr) φ 0 0 ha.ltree ha.ots).1
    rw [hleaf]
    have hφ2 : φ % 2 = 0 := by simp at hc1; omega
    refine ⟨_, rfl, ⟨⟨?_, ?_, w.work.nested.restart, ?_, w.work.base_len, w.work.base_ge⟩, ?_, hkv, ?_⟩, rfl, by
      rw [if_pos hφ2]⟩
    · exact { sh1 with auth_len := by simpa using sh.auth_len, auth_mem := forall_mem_set sh.auth_mem (ctx.len _ _) }
    · intro i hi
      obtain ⟨t, h1, h2⟩ := w.work.inst i hi
      refine ⟨t, h1, ?_⟩
      have hre : restart p.insts p.tree_height (φ + 1) pr i = pr i :=
        if_neg (fun hst => carry_not_dvd ht3 (i := i + 1) (by omega) hst.2.1)
      have htg : target (φ + 1) i = target φ i := by
        unfold target; rw [carry_high ht3 (by omega)]
      exact ⟨fun h => by rw [htg]; rw [hre] at h; exact h2.full h, fun h => by
        rw [htg, hre]; rw [hre] at h; exact h2.part h⟩
    · exact ⟨w.work.stack.off, w.work.stack.stack, w.work.stack.levels⟩
    · intro i hi
      rcases Nat.eq_or_lt_of_le (Nat.zero_le i) with rfl | hpos
      · simp only
        rw [List.getElem?_set_self htl]
        rw [pow_zero, Nat.div_one, show φ + 1 = 2 * (φ / 2) + 1 by omega, sibling_odd]
        congr 2
        omega
      · simp only
        rw [List.getElem?_set_ne (by omega)]
        exact hauth_high i hpos hi
    · exact w.retain
  · rw [if_pos (by omega), w.auth (tau - 1) (by omega)]
    obtain ⟨q, q1, q2, q3, q4, q5⟩ := carry_low ht3 (i := tau - 1) (by omega)
    have htt : tau - 1 + 1 = tau := by omega
    rw [htt] at q1 q4 q5
    have hqm : q = 2 * m := by rw [← q1]; exact hc1
    have hk1 := w.keep (tau - 1) (by omega) (by rw [q2]; omega) (by rw [htt, hc1]; omega)
    rw [Nat.shiftRight_one, hk1]
    simp only [Option.bind_eq_bind, Option.bind_some]
    simp only [Option.bind_eq_bind] at hkeep
    rw [hkeep]
    simp only [Option.bind_some, if_neg h0]
    rw [q2, sibling_odd, Nat.shiftRight_eq_div_pow, q1]
    have hnode := ctx.node (nodeOf addr) (tau - 1) q ha.node
    rw [hnode, htt, setA_some htl]
    simp only [Option.bind_some]
    have sh2 : Shape p { s with keep := keep', auth := s.auth.set tau (N tau q) } :=
      { sh1 with auth_len := by simpa using sh.auth_len, auth_mem := forall_mem_set sh.auth_mem (ctx.len _ _) }
    obtain ⟨auth', r1, r2, r3⟩ := authLoop_eq (p := p) (φ := φ) (f := fun i => N i (target φ i)) (fun i => ctx.len _ _) tau 0
      { s with keep := keep', auth := s.auth.set tau (N tau q) } sh2 (by omega)
      (by
        intro j _ hj hjM
        obtain ⟨t, h1, h2⟩ := w.work.inst j hjM
        refine ⟨t, h1, (h2.full (hdone j hjM ((carry_dvd ht3).mpr (by omega)))).2.2 ?_⟩
        obtain ⟨q', e1, e2, e3, e4, e5⟩ := carry_low ht3 (i := j) (by omega)
        unfold target
        rw [e1]
        rw [e5, show p.tree_height = j + 1 + (p.tree_height - j - 1) by omega, pow_add 2 (j + 1)] at hφ
        have := Nat.lt_of_mul_lt_mul_left hφ
        rw [show p.tree_height - j = p.tree_height - j - 1 + 1 by omega, pow_succ]
        omega)
      (by
        intro j _ hj hjM
        obtain ⟨q', e1, e2, e3, e4, e5⟩ := carry_low ht3 (i := j) (by omega)
        have h1 := w.retain j q' hjM (by omega) (by
          rw [e5, show p.tree_height = j + 1 + (p.tree_height - j - 1) by omega, pow_add 2 (j + 1)] at hφ
          have := Nat.lt_of_mul_lt_mul_left hφ
          rw [show p.tree_height - j = p.tree_height - j - 1 + 1 by omega, pow_succ]
          omega)
        unfold target
        rw [e1, ← h1]
        unfold retainSlot
        simp only
        rw [Nat.shiftRight_eq_div_pow φ j, e2, Nat.one_shiftLeft, Nat.shiftRight_one]
        congr 2
        omega)
    rw [Nat.zero_add] at r3
    rw [r1]
    simp only [Option.bind_some]
    obtain ⟨ths, g1, g2, g3⟩ := restartLoop_eq (p := p) (φ := φ) hth (if tau < p.insts then tau else p.insts) 0
      { s with keep := keep', auth := auth' } r2 (by split <;> omega)
    rw [g1]
    have hφ2 : φ % 2 ≠ 0 := by
      obtain ⟨q', e1, e2, e3, e4, e5⟩ := carry_low ht3 (i := 0) (by omega)
      rw [pow_zero, Nat.div_one] at e2
      omega
    refine ⟨_, rfl, ⟨⟨g2, ?_, w.work.nested.restart, ?_, w.work.base_len, w.work.base_ge⟩, ?_, hkv, ?_⟩, rfl, by
      rw [if_neg hφ2]; rfl⟩
    · intro i hi
      obtain ⟨t, h1, h2⟩ := w.work.inst i hi
      refine ⟨_, g3 i t h1, ?_⟩
      by_cases hit : i < tau
      · obtain ⟨q', e1, e2, e3, e4, e5⟩ := carry_low ht3 (i := i) hit
        have hfull := h2.full (hdone i hi ((carry_dvd ht3).mpr (by omega)))
        have htg : target (φ + 1) i * 2 ^ i = φ + 1 + 3 * 2 ^ i := by
          unfold target; rw [e4, e5]; ring
        have hiff : target (φ + 1) i < 2 ^ (p.tree_height - i) ↔ φ + 1 + 3 * 2 ^ i < 2 ^ p.tree_height := by
          rw [← htg]
          conv_rhs => rw [show p.tree_height = (p.tree_height - i) + i by omega, pow_add]
          exact (Nat.mul_lt_mul_right (Nat.two_pow_pos i)).symm
        by_cases hst : φ + 1 + 3 * 2 ^ i < 2 ^ p.tree_height
        · rw [if_pos ⟨Nat.zero_le _, by split <;> omega, hst⟩]
          have hre : restart p.insts p.tree_height (φ + 1) pr i = 0 :=
            if_pos ⟨hi, (carry_dvd ht3).mpr (by omega), hst⟩
          constructor
          · intro h; rw [hre] at h; exact absurd h.symm (Nat.ne_of_gt (Nat.two_pow_pos i))
          · intro _
            rw [hre, hfull.2.1]
            exact ⟨rfl, rfl, by rw [htg]; rfl, rfl, IsStk.nil 0, hiff.mpr hst⟩
        · rw [if_neg (by omega)]
          have hre : restart p.insts p.tree_height (φ + 1) pr i = pr i := if_neg (fun h => hst h.2.2)
          rw [hdone i hi ((carry_dvd ht3).mpr (by omega))] at hre
          constructor
          · intro _
            exact ⟨hfull.1, hfull.2.1, fun h => absurd (hiff.mp h) hst⟩
          · intro h; rw [hre] at h; omega
      · rw [if_neg (by split <;> omega)]
        have hre : restart p.insts p.tree_height (φ + 1) pr i = pr i :=
          if_neg (fun hst => carry_not_dvd ht3 (i := i + 1) (by omega) hst.2.1)
        have htg : target (φ + 1) i = target φ i := by
          unfold target; rw [carry_high ht3 (by omega)]
        exact ⟨fun h => by rw [htg]; rw [hre] at h; exact h2.full h, fun h => by
          rw [htg, hre]; rw [hre] at h; exact h2.part h⟩
    · exact ⟨w.work.stack.off, w.work.stack.stack, w.work.stack.levels⟩
    · intro i hi
      simp only
      rw [r3 i]
      by_cases hit : i < tau
      · rw [if_pos ⟨Nat.zero_le _, hit⟩]
        obtain ⟨q', e1, e2, e3, e4, e5⟩ := carry_low ht3 (i := i) hit
        rw [e3, show 2 * q' + 2 = 2 * (q' + 1) by ring, sibling_even]
        unfold target
        rw [e1, show 2 * (q' + 1) + 1 = 2 * q' + 3 by ring]
      · rw [if_neg (by omega)]
        simp only
        rcases Nat.eq_or_lt_of_le (Nat.le_of_not_lt hit) with rfl | hit'
        · rw [List.getElem?_set_self htl, hc2, sibling_odd, hqm]
        · rw [List.getElem?_set_ne (by omega)]
          exact hauth_high i hit' hi
    · exact w.retain

end Xmss
