import Verif.Proof.KeccakF
import Verif.Proof.ShakeLen
import Mathlib.Tactic.Linarith
/-
The sponge of fips202.c on the level of bit strings.
-/
namespace Xmss
open Fips202 (bits)

theorem bits_nil : bits [] = [] := rfl
theorem bits_cons (b : UInt8) (l : Bytes) : bits (b :: l) = (List.range 8).map (fun i => b.toNat.testBit i) ++ bits l := by
  rw [bits, List.flatMap_cons]; rfl
theorem bits_append (a b : Bytes) : bits (a ++ b) = bits a ++ bits b := List.flatMap_append
theorem bits_length (b : Bytes) : (bits b).length = 8 * b.length := by
  induction b with
  | nil => rfl
  | cons x l ih => rw [bits_cons, List.length_append, ih]; simp; ring
theorem bits_take (b : Bytes) (k : Nat) : (bits b).take (8 * k) = bits (b.take k) := by
  induction b generalizing k with
  | nil => simp [bits_nil]
  | cons x l ih =>
    cases k with
    | zero => simp [bits_nil]
    | succ k =>
      rw [List.take_succ_cons, bits_cons, bits_cons, ← ih k, List.take_append]
      simp only [List.length_map, List.length_range]
      rw [List.take_of_length_le (by simp), show 8 * (k + 1) - 8 = 8 * k by omega]
theorem bits_drop (b : Bytes) (k : Nat) : (bits b).drop (8 * k) = bits (b.drop k) := by
  induction b generalizing k with
  | nil => simp [bits_nil]
  | cons x l ih =>
    cases k with
    | zero => rfl
    | succ k =>
      rw [List.drop_succ_cons, bits_cons, ← ih k, List.drop_append]
      simp only [List.length_map, List.length_range]
      rw [List.drop_of_length_le (by simp), show 8 * (k + 1) - 8 = 8 * k by omega, List.nil_append]

theorem bits_getD (b : Bytes) : ∀ (j z : Nat), z < 8 → (bits b).getD (8 * j + z) false = (b.getD j 0).toNat.testBit z := by
  induction b with
  | nil => intro j z _; simp [bits_nil]
  | cons x l ih =>
    intro j z hz
    rw [bits_cons]
    cases j with
    | zero =>
      rw [List.getD_append _ _ _ _ (by simpa using hz)]
      simp [List.getD_eq_getElem?_getD, hz]
    | succ j =>
      rw [List.getD_append_right _ _ _ _ (by simp; omega)]
      simp only [List.length_map, List.length_range, List.getD_cons_succ]
      rw [← ih j z hz]
      congr 1
      omega

theorem ext_bits {a b : List Bool} (h : a.length = b.length) (e : ∀ i, i < a.length → a.getD i false = b.getD i false) :
    a = b := by
  apply List.ext_getElem h
  intro i h1 h2
  rw [getElem_eq_getD_false, getElem_eq_getD_false, e i h1]

/-- Bytes with the same bits are the same. -/
theorem bits_injective {a b : Bytes} (h : bits a = bits b) : a = b := by
  have hl : a.length = b.length := by
    have := congrArg List.length h
    rw [bits_length, bits_length] at this; omega
  apply List.ext_getElem hl
  intro i h1 h2
  apply UInt8.toNat_inj.1
  apply Nat.eq_of_testBit_eq
  intro z
  by_cases hz : z < 8
  · have := bits_getD a i z hz
    rw [h, bits_getD b i z hz] at this
    simp only [List.getD_eq_getElem?_getD, List.getElem?_eq_getElem h1, List.getElem?_eq_getElem h2, Option.getD_some] at this
    exact this.symm
  · have : ∀ x : UInt8, x.toNat.testBit z = false := fun x =>
      Nat.testBit_lt_two_pow (lt_of_lt_of_le x.toNat_lt (Nat.pow_le_pow_right (by omega) (by omega : 8 ≤ z)))
    rw [this, this]

/-! Lanes and bytes -/

theorem store64Loop_getD (k : Nat) : ∀ (u : Lane) (j z : Nat), j < k → z < 8 →
    ((store64Loop k u).getD j 0).toNat.testBit z = u.getLsbD (8 * j + z) := by
  induction k with
  | zero => intro u j z hj; omega
  | succ k ih =>
    intro u j z hj hz
    cases j with
    | zero =>
      simp only [store64Loop, List.getD_cons_zero, UInt8.toNat_ofNat', Nat.testBit_mod_two_pow, hz, decide_true,
        Bool.true_and, Nat.mul_zero, Nat.zero_add]
      rfl
    | succ j =>
      simp only [store64Loop, List.getD_cons_succ]
      rw [ih _ _ _ (by omega) hz, BitVec.getLsbD_ushiftRight]
      congr 1
      omega

theorem bits_store64 (u : Lane) : bits (store64 u) = (List.range 64).map u.getLsbD := by
  apply ext_bits
  · rw [bits_length, store64_length]; simp
  · intro i hi
    rw [bits_length, store64_length] at hi
    conv_lhs => rw [← Nat.div_add_mod i 8]
    rw [bits_getD _ _ _ (Nat.mod_lt _ (by omega)), store64, store64Loop_getD _ _ _ _ (by omega) (Nat.mod_lt _ (by omega)),
      Nat.div_add_mod]
    simp [List.getD_eq_getElem?_getD, show i < 64 by omega]

theorem bits_lanes (l : List Lane) : bits ((l.map store64).flatten) = laneBits l := by
  induction l with
  | nil => rfl
  | cons x l ih => rw [List.map_cons, List.flatten_cons, bits_append, ih, bits_store64, laneBits, laneBits, List.flatMap_cons]

theorem load64Loop_getLsbD (bs : Bytes) : ∀ (i : Nat) (r : Lane) (q : Nat), q < 64 →
    (load64Loop i bs r).getLsbD q = (r.getLsbD q || (decide (8 * i ≤ q) && (bits bs).getD (q - 8 * i) false)) := by
  induction bs with
  | nil => intro i r q hq; simp [load64Loop, bits_nil]
  | cons b bs ih =>
    intro i r q hq
    rw [load64Loop, ih _ _ _ hq, bits_cons]
    by_cases h1 : 8 * i ≤ q
    · by_cases h2 : 8 * (i + 1) ≤ q
      · rw [List.getD_append_right _ _ _ _ (by simp; omega)]
        have e : b.toNat.testBit (q - 8 * i) = false :=
          Nat.testBit_lt_two_pow (lt_of_lt_of_le b.toNat_lt (Nat.pow_le_pow_right (by omega) (by omega : 8 ≤ q - 8 * i)))
        simp only [BitVec.getLsbD_or, BitVec.getLsbD_shiftLeft, BitVec.getLsbD_ofNat, e, Bool.and_false, Bool.or_false,
          h1, h2, decide_true, Bool.true_and, List.length_map, List.length_range]
        congr 2
      · rw [List.getD_append _ _ _ _ (by simp; omega)]
        simp only [BitVec.getLsbD_or, BitVec.getLsbD_shiftLeft, BitVec.getLsbD_ofNat, h1, h2, hq, decide_true,
          decide_false, Bool.false_and, Bool.or_false, Bool.true_and, List.getD_eq_getElem?_getD, List.getElem?_map,
          List.getElem?_range (show q - 8 * i < 8 by omega), show q - 8 * i < 64 by omega, show ¬ q < 8 * i by omega,
          Option.map_some, Option.getD_some, Bool.not_false]
    · simp [BitVec.getLsbD_shiftLeft, h1, show ¬ 8 * (i + 1) ≤ q by omega, show q < 8 * i by omega]

theorem bits_load64 (m : Bytes) (h : 8 ≤ m.length) : (List.range 64).map (load64 m).getLsbD = bits (m.take 8) := by
  apply ext_bits
  · rw [bits_length]; simp; omega
  · intro i hi
    have hi : i < 64 := by simpa using hi
    have := load64Loop_getLsbD (m.take 8) 0 0 i hi
    rw [load64]
    simp only [List.getD_eq_getElem?_getD, List.getElem?_map, List.getElem?_range hi, Option.map_some, Option.getD_some]
    rw [this]
    simp [List.getD_eq_getElem?_getD]

theorem xorBits_append {a b c d : List Bool} (h : a.length = b.length) :
    Fips202.xorBits (a ++ c) (b ++ d) = Fips202.xorBits a b ++ Fips202.xorBits c d := by
  rw [Fips202.xorBits, List.zipWith_append h]; rfl

theorem xorBits_zero (a : List Bool) : Fips202.xorBits a (List.replicate a.length false) = a := by
  induction a with
  | nil => rfl
  | cons x a ih =>
    rw [List.length_cons, List.replicate_succ]
    rw [Fips202.xorBits] at *
    rw [List.zipWith_cons_cons, ih, Bool.xor_false]

theorem laneBits_cons (l : Lane) (s : List Lane) : laneBits (l :: s) = (List.range 64).map l.getLsbD ++ laneBits s := by
  rw [laneBits, List.flatMap_cons]; rfl

theorem laneBits_xor (a b : Lane) : (List.range 64).map (a ^^^ b).getLsbD =
    Fips202.xorBits ((List.range 64).map a.getLsbD) ((List.range 64).map b.getLsbD) := by
  rw [Fips202.xorBits, List.zipWith_map, List.zipWith_self]
  simp

theorem laneBits_xorBlock (k : Nat) : ∀ (s : List Lane) (m : Bytes), k ≤ s.length → 8 * k ≤ m.length →
    laneBits (xorBlock k s m) = Fips202.xorBits (laneBits s)
      (bits (m.take (8 * k)) ++ List.replicate (64 * s.length - 64 * k) false) := by
  induction k with
  | zero =>
    intro s m _ _
    have := xorBits_zero (laneBits s)
    rw [laneBits_length] at this
    simp only [xorBlock, Nat.mul_zero, List.take_zero, bits_nil, List.nil_append, Nat.sub_zero]
    exact this.symm
  | succ k ih =>
    intro s m hk hm
    cases s with
    | nil => simp at hk
    | cons l s =>
      have hk : k ≤ s.length := by simpa using hk
      rw [xorBlock, laneBits_cons, laneBits_cons, ih s (m.drop 8) hk (by rw [List.length_drop]; omega), laneBits_xor,
        bits_load64 m (by omega)]
      have e : m.take (8 * (k + 1)) = m.take 8 ++ (m.drop 8).take (8 * k) := by
        rw [show 8 * (k + 1) = 8 + 8 * k by ring, List.take_add]
      rw [e, bits_append, List.append_assoc, xorBits_append]
      · rw [List.length_cons, show 64 * (s.length + 1) - 64 * (k + 1) = 64 * s.length - 64 * k by omega]
      · rw [bits_length, List.length_take]; simp; omega

theorem xorBlock_length (k : Nat) : ∀ (s : List Lane) (m : Bytes), (xorBlock k s m).length = s.length := by
  induction k with
  | zero => intro s m; rfl
  | succ k ih =>
    intro s m
    cases s with
    | nil => rfl
    | cons l s => rw [xorBlock, List.length_cons, ih, List.length_cons]

/-! Padding -/

theorem pad101_eq {r t : Nat} (q : Nat) (ht : t < r) :
    Fips202.pad101 (8 * r) (8 * (r * q + t) + 4) = true :: (List.replicate (8 * (r - t) - 6) false ++ [true]) := by
  have : ((-((8 * (r * q + t) + 4 : Nat) : Int) - 2) % ((8 * r : Nat) : Int)).toNat = 8 * (r - t) - 6 := by
    have e : (-((8 * (r * q + t) + 4 : Nat) : Int) - 2) = ((8 * (r - t) - 6 : Nat) : Int) + (8 * r : Nat) * (-(q + 1 : Nat) : Int) := by
      rw [Nat.cast_sub (by omega), Nat.cast_mul, Nat.cast_sub (by omega)]
      push_cast
      ring
    rw [e, Int.add_mul_emod_self_left, Int.emod_eq_of_lt (by omega) (by omega)]
    omega
  rw [Fips202.pad101, this]

theorem bits_replicate_zero (k : Nat) : bits (List.replicate k 0) = List.replicate (8 * k) false := by
  induction k with
  | zero => rfl
  | succ k ih =>
    rw [List.replicate_succ, bits_cons, ih, show 8 * (k + 1) = 8 + 8 * k by ring, ← List.replicate_append_replicate]
    rfl

theorem lastBlock_eq {r : Nat} (m : Bytes) (h : m.length < r) : lastBlock r m 0x1F =
    if m.length + 1 = r then m ++ [0x9F] else m ++ 0x1F :: (List.replicate (r - m.length - 2) 0 ++ [0x80]) := by
  obtain ⟨k, hk⟩ : ∃ k, r = m.length + 1 + k := ⟨r - m.length - 1, by omega⟩
  subst hk
  have e1 : (m ++ List.replicate (m.length + 1 + k - m.length) (0 : UInt8)).set m.length 0x1F =
      m ++ 0x1F :: List.replicate k 0 := by
    rw [show m.length + 1 + k - m.length = k + 1 by omega, List.replicate_succ, List.set_append_right _ _ (Nat.le_refl _)]
    simp
  rw [lastBlock]
  simp only [e1]
  cases k with
  | zero => simp; decide
  | succ k =>
    rw [if_neg (by omega), show m.length + 1 + (k + 1) - m.length - 2 = k by omega,
      show m.length + 1 + (k + 1) - 1 = m.length + (k + 1) by omega, List.set_append_right _ _ (by omega),
      List.getD_append_right _ _ _ _ (by omega), Nat.add_sub_cancel_left, List.set_cons_succ, List.getD_cons_succ,
      show List.replicate (k + 1) (0 : UInt8) = List.replicate k 0 ++ [0] by rw [List.replicate_succ'],
      List.set_append_right _ _ (by simp), List.getD_append_right _ _ _ _ (by simp)]
    simp

/-- The last block of keccak_absorb, as a bit string: rest of the message, 1111, pad10*1. -/
theorem lastBlock_bits {r : Nat} (m : Bytes) (q : Nat) (h : m.length < r) : bits (lastBlock r m 0x1F) =
    bits m ++ [true, true, true, true] ++ Fips202.pad101 (8 * r) (8 * (r * q + m.length) + 4) := by
  rw [pad101_eq q h, lastBlock_eq m h]
  split
  · next e =>
    rw [bits_append, show 8 * (r - m.length) - 6 = 2 by omega, List.append_assoc]
    rfl
  · next e =>
    obtain ⟨k, hk⟩ : ∃ k, r = m.length + 2 + k := ⟨r - m.length - 2, by omega⟩
    subst hk
    rw [show m.length + 2 + k - m.length - 2 = k by omega, show 8 * (m.length + 2 + k - m.length) - 6 = 3 + (8 * k + 7) by omega,
      bits_append, bits_cons, bits_append, bits_replicate_zero, ← List.replicate_append_replicate, ← List.replicate_append_replicate, List.append_assoc]
    congr 1
    simp only [List.append_assoc]
    rfl

theorem lastBlock_length {r : Nat} (m : Bytes) (h : m.length < r) (pad : UInt8) : (lastBlock r m pad).length = r := by
  rw [lastBlock]; simp; omega

/-! Absorbing -/

theorem keccakAbsorbLoop_length (r : Nat) (pad : UInt8) (fuel : Nat) : ∀ (s : List Lane) (m : Bytes), s.length = 25 →
    (keccakAbsorbLoop r pad fuel s m).length = 25 := by
  induction fuel with
  | zero => intro s m hs; rw [keccakAbsorbLoop, xorBlock_length, hs]
  | succ fuel ih =>
    intro s m hs
    rw [keccakAbsorbLoop]
    split
    · exact ih _ _ (keccakPermute_length _)
    · rw [xorBlock_length, hs]

theorem absorb_spec {r : Nat} (hr : r % 8 = 0) (hr0 : 0 < r) (hr2 : r ≤ 200) (fuel : Nat) : ∀ (s : List Lane) (m : Bytes),
    s.length = 25 → m.length ≤ fuel → ∀ M, M % r = m.length % r →
    Fips202.keccakF (laneBits (keccakAbsorbLoop r 0x1F fuel s m)) =
      Fips202.absorb (8 * r) (m.length / r + 1) (laneBits s)
        (bits m ++ [true, true, true, true] ++ Fips202.pad101 (8 * r) (8 * M + 4)) := by
  have last : ∀ (s : List Lane) (m : Bytes), s.length = 25 → m.length < r → ∀ M, M % r = m.length % r →
      Fips202.keccakF (laneBits (xorBlock (r / 8) s (lastBlock r m 0x1F))) =
      Fips202.absorb (8 * r) (m.length / r + 1) (laneBits s)
        (bits m ++ [true, true, true, true] ++ Fips202.pad101 (8 * r) (8 * M + 4)) := by
    intro s m hs hm M hM
    have hM' : M = r * (M / r) + m.length := by
      have := Nat.div_add_mod M r
      rw [hM, Nat.mod_eq_of_lt hm] at this
      exact this.symm
    rw [hM', ← lastBlock_bits m (M / r) hm, Nat.div_eq_of_lt hm, Fips202.absorb, Fips202.absorb,
      laneBits_xorBlock _ _ _ (by omega) (by rw [lastBlock_length m hm]; omega), hs]
    have e : 8 * (r / 8) = r := by omega
    rw [e, bits_take, List.take_of_length_le (by rw [lastBlock_length m hm]), show 64 * 25 - 64 * (r / 8) = 1600 - 8 * r by omega]
  induction fuel with
  | zero =>
    intro s m hs hm M hM
    rw [keccakAbsorbLoop]
    exact last s m hs (by omega) M hM
  | succ fuel ih =>
    intro s m hs hm M hM
    rw [keccakAbsorbLoop]
    split
    · next h =>
      have hl : (m.drop r).length = m.length - r := List.length_drop
      rw [ih _ _ (keccakPermute_length _) (by omega) M (by rw [hM, hl, ← Nat.mod_eq_sub_mod h]), keccakPermute_bits,
        laneBits_xorBlock _ _ _ (by omega) (by omega), hs, hl]
      have e : 8 * (r / 8) = r := by omega
      have e2 : m.length / r + 1 = ((m.length - r) / r + 1) + 1 := by
        rw [Nat.div_eq_sub_div hr0 h]
      rw [e, e2]
      conv_rhs => rw [Fips202.absorb]
      rw [List.append_assoc (bits m), List.take_append_of_le_length (by rw [bits_length]; omega),
        List.drop_append_of_le_length (by rw [bits_length]; omega), bits_take, bits_drop, List.append_assoc,
        show 64 * 25 - 64 * (r / 8) = 1600 - 8 * r by omega]
    · next h => exact last s m hs (by omega) M hM

/-! Squeezing -/

theorem keccakSqueezeblocks_add (r a b : Nat) : ∀ s : List Lane, (keccakSqueezeblocks r (a + b) s).1 =
    (keccakSqueezeblocks r a s).1 ++ (keccakSqueezeblocks r b (keccakSqueezeblocks r a s).2).1 := by
  induction a with
  | zero => intro s; rw [Nat.zero_add]; rfl
  | succ a ih =>
    intro s
    rw [show a + 1 + b = (a + b) + 1 by ring, keccakSqueezeblocks, keccakSqueezeblocks]
    simp only
    rw [ih, List.append_assoc]

theorem shakeRate_eq_take {r : Nat} (hr : r % 8 = 0) (hr2 : r ≤ 200) (hr0 : 0 < r) (outlen : Nat) (inp : Bytes) (k : Nat)
    (hk : outlen ≤ k * r) : shakeRate r outlen inp =
      (keccakSqueezeblocks r k (keccakAbsorb r (List.replicate 25 0) inp 0x1F)).1.take outlen := by
  rw [shakeRate]
  generalize keccakAbsorb r (List.replicate 25 0) inp 0x1F = s
  have h := Nat.div_add_mod outlen r
  have hm := Nat.mod_lt outlen hr0
  split
  · next h0 =>
    have hq : outlen / r ≤ k := by
      rw [h0, Nat.add_zero, Nat.mul_comm] at h
      rw [← h] at hk
      exact Nat.le_of_mul_le_mul_right hk hr0
    obtain ⟨j, rfl⟩ : ∃ j, k = outlen / r + j := ⟨k - outlen / r, by omega⟩
    rw [keccakSqueezeblocks_add, List.take_append_of_le_length, List.take_of_length_le]
    · rw [keccakSqueezeblocks_length hr hr2, Nat.mul_comm]; omega
    · rw [keccakSqueezeblocks_length hr hr2, Nat.mul_comm]; omega
  · next h0 =>
    have hq : outlen / r + 1 ≤ k := by
      by_contra hc
      have : k ≤ outlen / r := by omega
      have := Nat.mul_le_mul_right r this
      rw [Nat.mul_comm r] at h
      omega
    obtain ⟨j, rfl⟩ : ∃ j, k = outlen / r + 1 + j := ⟨k - (outlen / r + 1), by omega⟩
    rw [keccakSqueezeblocks_add, keccakSqueezeblocks_add, List.append_assoc, List.take_append,
      keccakSqueezeblocks_length hr hr2, List.take_of_length_le (l := (keccakSqueezeblocks r (outlen / r) s).1)
        (by rw [keccakSqueezeblocks_length hr hr2, Nat.mul_comm]; omega)]
    congr 1
    rw [show outlen - outlen / r * r = outlen % r by rw [Nat.mul_comm]; omega, List.take_append_of_le_length]
    rw [keccakSqueezeblocks_length hr hr2]; omega

theorem squeeze_spec {r : Nat} (hr : r % 8 = 0) (hr2 : r ≤ 200) (d : Nat) (k : Nat) : ∀ (fuel : Nat) (s : List Lane)
    (Z : List Bool), 1 ≤ k → k - 1 ≤ fuel → d ≤ Z.length + 8 * r * k →
    Fips202.squeeze (8 * r) d fuel Z (Fips202.keccakF (laneBits s)) =
      (Z ++ bits (keccakSqueezeblocks r k s).1).take d := by
  have trunc : ∀ s : List Lane, s.length = 25 → (laneBits s).take (8 * r) = bits ((s.take (r >>> 3)).map store64).flatten := by
    intro s hs
    rw [← bits_lanes, bits_take]
    congr 1
    rw [Nat.shiftRight_eq_div_pow]
    have : ∀ (j : Nat) (l : List Lane), ((l.map store64).flatten).take (8 * j) = ((l.take j).map store64).flatten := by
      intro j
      induction j with
      | zero => intro l; simp
      | succ j ih =>
        intro l
        cases l with
        | nil => simp
        | cons x l =>
          rw [List.map_cons, List.flatten_cons, List.take_append, store64_length, List.take_of_length_le
            (by rw [store64_length]; omega), show 8 * (j + 1) - 8 = 8 * j by omega, ih, List.take_succ_cons, List.map_cons,
            List.flatten_cons]
    rw [← this, show 8 * (r / 2 ^ 3) = r by omega]
  induction k with
  | zero => intro _ _ _ h; omega
  | succ k ih =>
    intro fuel s Z _ hf hd
    rw [← keccakPermute_bits]
    have hlen := keccakPermute_length s
    rw [keccakSqueezeblocks]
    simp only
    generalize keccakPermute s = s' at hlen ⊢
    have ht := trunc s' hlen
    have htl : ((laneBits s').take (8 * r)).length = 8 * r := by
      rw [List.length_take, laneBits_length, hlen]; omega
    rw [bits_append, ← ht]
    have stop : ∀ Y : List Bool, d ≤ (Z ++ (laneBits s').take (8 * r)).length →
        (Z ++ (laneBits s').take (8 * r)).take d = (Z ++ ((laneBits s').take (8 * r) ++ Y)).take d := by
      intro Y h
      rw [← List.append_assoc, List.take_append_of_le_length h]
    cases fuel with
    | zero =>
      have : k = 0 := by omega
      subst this
      rw [Fips202.squeeze]
      exact stop _ (by rw [List.length_append, htl]; omega)
    | succ fuel =>
      rw [Fips202.squeeze]
      split
      · next h => exact stop _ h
      · next h =>
        rw [List.length_append, htl] at h
        have hk : 1 ≤ k := by
          by_contra hc
          have : k = 0 := by omega
          subst this
          omega
        rw [ih fuel s' _ hk (by omega) (by rw [List.length_append, htl]; rw [Nat.mul_add] at hd; omega), List.append_assoc]

theorem shakeRate_bits {r : Nat} (hr : r % 8 = 0) (hr2 : r ≤ 200) (hr0 : 0 < r) (outlen : Nat) (inp : Bytes) :
    bits (shakeRate r outlen inp) =
      Fips202.sponge (8 * r) (bits inp ++ [true, true, true, true]) (8 * outlen) := by
  have hkk : outlen ≤ (outlen / r + 1) * r := by
    have h := Nat.div_add_mod outlen r
    have hm := Nat.mod_lt outlen hr0
    rw [Nat.add_mul, Nat.mul_comm (outlen / r)]; omega
  rw [shakeRate_eq_take hr hr2 hr0 outlen inp (outlen / r + 1) hkk, Fips202.sponge]
  have hN : (bits inp ++ [true, true, true, true]).length = 8 * inp.length + 4 := by
    rw [List.length_append, bits_length]; rfl
  have hm := Nat.mod_lt inp.length hr0
  have hd := Nat.div_add_mod inp.length r
  have hP : (bits inp ++ [true, true, true, true] ++ Fips202.pad101 (8 * r) (8 * inp.length + 4)).length / (8 * r) =
      inp.length / r + 1 := by
    have : (bits inp ++ [true, true, true, true] ++ Fips202.pad101 (8 * r) (8 * inp.length + 4)).length =
        (inp.length / r + 1) * (8 * r) := by
      rw [List.length_append, hN]
      conv_lhs => rw [← hd]
      rw [pad101_eq _ hm]
      simp only [List.length_cons, List.length_append, List.length_replicate, List.length_nil]
      have : 8 * (r * (inp.length / r) + inp.length % r) + 4 + (8 * (r - inp.length % r) - 6 + (0 + 1) + 1) =
         8 * (r * (inp.length / r)) + 8 * r := by omega
      rw [this]; ring
    rw [this, Nat.mul_div_cancel _ (by omega)]
  rw [hN, hP]
  have ha := absorb_spec hr hr0 hr2 inp.length (List.replicate 25 0) inp (by simp) (Nat.le_refl _) inp.length rfl
  have hz : laneBits (List.replicate 25 0) = List.replicate 1600 false := by decide +kernel
  rw [hz] at ha
  rw [← ha, squeeze_spec hr hr2 (8 * outlen) (outlen / r + 1) _ _ _ (Nat.le_add_left 1 _)]
  · rw [List.nil_append, bits_take]; rfl
  · rw [Nat.add_sub_cancel]; exact Nat.le_trans (Nat.div_le_self outlen r) (by omega)
  · rw [List.length_nil]
    have e : 8 * r * (outlen / r + 1) = 8 * ((outlen / r + 1) * r) := by ring
    omega

theorem strip_zeros {x y : List Bool} : ∀ (j k : Nat), x ++ true :: List.replicate j false = y ++ true :: List.replicate k false →
    x = y := by
  intro j
  induction j with
  | zero =>
    intro k h
    cases k with
    | zero => exact (List.append_inj' h rfl).1
    | succ k =>
      rw [List.replicate_succ', ← List.cons_append, ← List.append_assoc] at h
      have := (List.append_inj' h rfl).2
      simp at this
  | succ j ih =>
    intro k h
    cases k with
    | zero =>
      rw [List.replicate_succ', ← List.cons_append, ← List.append_assoc] at h
      have := (List.append_inj' h rfl).2
      simp at this
    | succ k =>
      rw [List.replicate_succ', List.replicate_succ', ← List.cons_append, ← List.append_assoc, ← List.cons_append,
        ← List.append_assoc] at h
      exact ih k (List.append_inj' h rfl).1

end Xmss
