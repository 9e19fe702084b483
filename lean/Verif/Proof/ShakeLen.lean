import Verif.Model.Keccak
import Mathlib.Tactic.Ring
/-
Lengths of the byte strings and states in fips202.c.
-/
namespace Xmss

theorem store64Loop_length (k : Nat) (u : Lane) : (store64Loop k u).length = k := by
  induction k generalizing u with
  | zero => rfl
  | succ k ih => simp [store64Loop, ih]

theorem store64_length (u : Lane) : (store64 u).length = 8 := store64Loop_length 8 u

theorem keccakPermute_length (s : List Lane) : (keccakPermute s).length = 25 := rfl

theorem lanes_flatten_length (l : List Lane) : ((l.map store64).flatten).length = 8 * l.length := by
  induction l with
  | nil => rfl
  | cons x l ih => simp [store64_length, ih]; ring

theorem keccakSqueezeblocks_length {r : Nat} (hr : r % 8 = 0) (hr2 : r ≤ 200) (k : Nat) (s : List Lane) :
    (keccakSqueezeblocks r k s).1.length = k * r := by
  induction k generalizing s with
  | zero => simp [keccakSqueezeblocks]
  | succ k ih =>
    simp only [keccakSqueezeblocks, List.length_append, ih, lanes_flatten_length, List.length_take,
      keccakPermute_length, Nat.shiftRight_eq_div_pow]
    have : 8 * min (r / 2 ^ 3) 25 = r := by omega
    rw [this]; ring

theorem shakeRate_length {r : Nat} (hr : r % 8 = 0) (hr2 : r ≤ 200) (hr0 : 0 < r) (outlen : Nat) (inp : Bytes) :
    (shakeRate r outlen inp).length = outlen := by
  unfold shakeRate
  have h := Nat.div_add_mod outlen r
  have hm := Nat.mod_lt outlen hr0
  split
  · next h0 => rw [keccakSqueezeblocks_length hr hr2, Nat.mul_comm]; omega
  · rw [List.length_append, List.length_take, keccakSqueezeblocks_length hr hr2, keccakSqueezeblocks_length hr hr2,
      Nat.mul_comm]
    omega

theorem shake128_length (outlen : Nat) (inp : Bytes) : (shake128 outlen inp).length = outlen :=
  shakeRate_length (by decide) (by decide) (by decide) _ _
theorem shake256_length (outlen : Nat) (inp : Bytes) : (shake256 outlen inp).length = outlen :=
  shakeRate_length (by decide) (by decide) (by decide) _ _

end Xmss
