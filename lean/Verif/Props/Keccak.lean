import Verif.Proof.Shake
import Mathlib.Tactic.NormNum
/-
C37-C39: fips202.c computes the functions of FIPS 202 (Spec/Fips202.lean, bit level).
-/
namespace Xmss
open Fips202 (bits)

/-- C37.  `KeccakF1600_StatePermute` is Keccak-f[1600] on every state: the 1600 bits of the 25 lanes (bit z of lane
5y+x is bit 64(5y+x)+z of the string, FIPS 202 section 3.1) are mapped as Algorithm 7 maps them. -/
theorem C37_permutation (st : List Lane) : laneBits (keccakPermute st) = Fips202.keccakF (laneBits st) :=
  keccakPermute_bits st

/-- C38.  shake128 writes the first 8·outlen bits of SHAKE128 of the message bits, and nothing else, for every message
and output length. -/
theorem C38_shake128 (outlen : Nat) (inp : Bytes) :
    (shake128 outlen inp).length = outlen ∧ bits (shake128 outlen inp) = Fips202.SHAKE128 (bits inp) (8 * outlen) :=
  ⟨shake128_length outlen inp, shakeRate_bits (by decide) (by decide) (by decide) outlen inp⟩

/-- C38.  shake256 likewise. -/
theorem C38_shake256 (outlen : Nat) (inp : Bytes) :
    (shake256 outlen inp).length = outlen ∧ bits (shake256 outlen inp) = Fips202.SHAKE256 (bits inp) (8 * outlen) :=
  ⟨shake256_length outlen inp, shakeRate_bits (by decide) (by decide) (by decide) outlen inp⟩

/-- The byte encoding of FIPS 202 B.1 is injective, so C38 determines the bytes written. -/
theorem C38_bits_determine_bytes {a b : Bytes} (h : bits a = bits b) : a = b := bits_injective h

/-- C39.  A shorter output is a prefix of a longer one (both functions). -/
theorem C39_prefix (n n' : Nat) (h : n ≤ n') (inp : Bytes) :
    (shake128 n' inp).take n = shake128 n inp ∧ (shake256 n' inp).take n = shake256 n inp := by
  have key : ∀ r, r % 8 = 0 → r ≤ 200 → 0 < r → (shakeRate r n' inp).take n = shakeRate r n inp := by
    intro r h1 h2 h3
    have hle : ∀ m, m ≤ n' → m ≤ n' * r := fun m hm => Nat.le_trans hm (Nat.le_mul_of_pos_right n' h3)
    rw [shakeRate_eq_take h1 h2 h3 n' inp n' (hle n' (Nat.le_refl _)), shakeRate_eq_take h1 h2 h3 n inp n' (hle n h),
      List.take_take, Nat.min_eq_left h]
  exact ⟨key 168 (by decide) (by decide) (by decide), key 136 (by decide) (by decide) (by decide)⟩

/-- The blocks that `keccak_absorb` XORs into the state, in order: the full blocks of the message and the padded rest. -/
def absorbedBlocks (r : Nat) : Nat → Bytes → List Bytes
  | 0, m => [lastBlock r m 0x1F]
  | fuel + 1, m => if r ≤ m.length then m.take r :: absorbedBlocks r fuel (m.drop r) else [lastBlock r m 0x1F]

/-- XOR the first block, and for each further block permute, then XOR. -/
def absorbAll (r : Nat) (s : List Lane) : List Bytes → List Lane
  | [] => s
  | [b] => xorBlock (r / 8) s b
  | b :: b' :: bs => absorbAll r (keccakPermute (xorBlock (r / 8) s b)) (b' :: bs)

theorem load64_take (m : Bytes) (r : Nat) (h : 8 ≤ r) : load64 (m.take r) = load64 m := by
  rw [load64, load64, List.take_take, Nat.min_eq_left h]

theorem xorBlock_take (k : Nat) : ∀ (r : Nat) (s : List Lane) (m : Bytes), 8 * k ≤ r →
    xorBlock k s (m.take r) = xorBlock k s m := by
  induction k with
  | zero => intro r s m _; rfl
  | succ k ih =>
    intro r s m hr
    cases s with
    | nil => rfl
    | cons l s =>
      rw [xorBlock, xorBlock, load64_take m r (by omega), List.drop_take, ih _ _ _ (by omega)]

theorem absorbedBlocks_ne_nil (r fuel : Nat) (m : Bytes) : absorbedBlocks r fuel m ≠ [] := by
  cases fuel with
  | zero => simp [absorbedBlocks]
  | succ fuel => rw [absorbedBlocks]; split <;> simp

theorem keccakAbsorbLoop_blocks (r fuel : Nat) : ∀ (s : List Lane) (m : Bytes),
    keccakAbsorbLoop r 0x1F fuel s m = absorbAll r s (absorbedBlocks r fuel m) := by
  induction fuel with
  | zero => intro s m; rfl
  | succ fuel ih =>
    intro s m
    rw [keccakAbsorbLoop, absorbedBlocks]
    split
    · rw [ih]
      have hne := absorbedBlocks_ne_nil r fuel (m.drop r)
      cases hb : absorbedBlocks r fuel (m.drop r) with
      | nil => exact absurd hb hne
      | cons b bs => rw [absorbAll, xorBlock_take _ _ _ _ (by omega)]
    · rfl

theorem absorbedBlocks_bits {r : Nat} (hr : 0 < r) (fuel : Nat) : ∀ m : Bytes, m.length ≤ fuel →
    bits (absorbedBlocks r fuel m).flatten = bits m ++ true :: true :: true :: true :: true ::
      (List.replicate (8 * (r - m.length % r) - 6) false ++ [true]) := by
  have last : ∀ m : Bytes, m.length < r → bits [lastBlock r m 0x1F].flatten = bits m ++ true :: true :: true :: true :: true ::
      (List.replicate (8 * (r - m.length % r) - 6) false ++ [true]) := by
    intro m hm
    have h := pad101_eq 0 hm
    rw [List.flatten_singleton, lastBlock_bits m 0 hm, h, List.append_assoc, Nat.mod_eq_of_lt hm]
    rfl
  induction fuel with
  | zero => intro m hm; exact last m (by omega)
  | succ fuel ih =>
    intro m hm
    rw [absorbedBlocks]
    split
    · next h =>
      rw [List.flatten_cons, bits_append, ih _ (by rw [List.length_drop]; omega), ← List.append_assoc, ← bits_append,
        List.take_append_drop, List.length_drop, ← Nat.mod_eq_sub_mod h]
    · next h => exact last m (by omega)

/-- C39.  What shake128/256 absorb determines the message: two different messages have different block sequences. -/
theorem C39_padding_injective {r : Nat} (hr : 0 < r) {a b : Bytes}
    (h : absorbedBlocks r a.length a = absorbedBlocks r b.length b) : a = b := by
  have ha := absorbedBlocks_bits hr a.length a (Nat.le_refl _)
  have hb := absorbedBlocks_bits hr b.length b (Nat.le_refl _)
  rw [h, hb] at ha
  have step : ∀ (x : Bytes) (k : Nat), bits x ++ true :: true :: true :: true :: true :: (List.replicate k false ++ [true]) =
      ((bits x ++ [true, true, true, true]) ++ true :: List.replicate k false) ++ [true] := by
    intro x k; simp
  rw [step, step] at ha
  have h1 := strip_zeros _ _ (List.append_inj' ha rfl).1
  exact (bits_injective (List.append_inj' h1 rfl).1).symm

/-- C39.  ... and the blocks are what is absorbed: keccak_absorb XORs exactly them, with a permutation between. -/
theorem C39_absorbs_blocks (r : Nat) (s : List Lane) (m : Bytes) :
    keccakAbsorb r s m 0x1F = absorbAll r s (absorbedBlocks r m.length m) :=
  keccakAbsorbLoop_blocks r m.length s m

/-- Every absorbed block has exactly the rate's length. -/
theorem C39_block_length {r : Nat} (hr : 0 < r) (fuel : Nat) : ∀ m : Bytes, m.length ≤ fuel →
    ∀ b ∈ absorbedBlocks r fuel m, b.length = r := by
  induction fuel with
  | zero =>
    intro m hm b hb
    rw [absorbedBlocks, List.mem_singleton] at hb
    rw [hb, lastBlock_length m (by omega)]
  | succ fuel ih =>
    intro m hm b hb
    rw [absorbedBlocks] at hb
    split at hb
    · next h =>
      rcases List.mem_cons.1 hb with rfl | hb
      · rw [List.length_take]; omega
      · exact ih _ (by rw [List.length_drop]; omega) b hb
    · next h =>
      rw [List.mem_singleton] at hb
      rw [hb, lastBlock_length m (by omega)]

/-- The bytes of two concrete block sequences (a rate of 8 keeps the example small): a 7-byte rest shares the byte
with both padding ends, an 8-byte message gets a second block. -/
example : absorbedBlocks 8 7 [1, 2, 3, 4, 5, 6, 7] = [[1, 2, 3, 4, 5, 6, 7, 0x9F]] ∧
    absorbedBlocks 8 8 [1, 2, 3, 4, 5, 6, 7, 8] = [[1, 2, 3, 4, 5, 6, 7, 8], [0x1F, 0, 0, 0, 0, 0, 0, 0x80]] := by
  decide

/-- FIPS 202 test value (also a check of the bit-level specification): SHAKE128 of the empty message starts 7f 9c 2b a4. -/
example : shake128 4 [] = [0x7f, 0x9c, 0x2b, 0xa4] := by decide +kernel
example : shake256 4 [] = [0x46, 0xb9, 0xdd, 0x2b] := by decide +kernel

end Xmss
