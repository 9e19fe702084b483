import Verif.Model.Bytes
import Verif.Spec.Rfc8391
import Mathlib.Data.Nat.Bitwise
import Mathlib.Data.List.Induction
import Mathlib.Tactic.Ring
import Mathlib.Tactic.Linarith
/-
Lemmas about byte strings and buffers.
-/
namespace Xmss

theorem ullToBytes_length (k x : Nat) : (ullToBytes k x).length = k := by
  induction k generalizing x with
  | zero => rfl
  | succ k ih => simp [ullToBytes, ih]

theorem toByte_length (x k : Nat) : (Rfc.toByte x k).length = k := by simp [Rfc.toByte]

theorem UInt8_ofNat_and (x : Nat) : UInt8.ofNat (x &&& 0xff) = UInt8.ofNat x := by
  apply UInt8.toNat_inj.mp
  have : x &&& 0xff = x % 256 := Nat.and_two_pow_sub_one_eq_mod x 8
  simp [this]

theorem toByte_succ (x k : Nat) : Rfc.toByte x (k + 1) = Rfc.toByte (x / 256) k ++ [UInt8.ofNat x] := by
  simp only [Rfc.toByte, List.range_succ, List.map_append, List.map_cons, List.map_nil]
  congr 1
  · apply List.map_congr_left
    intro i hi
    have hi : i < k := List.mem_range.mp hi
    congr 1
    have : k + 1 - 1 - i = (k - 1 - i) + 1 := by omega
    rw [this, pow_succ', Nat.div_div_eq_div_mul]
  · simp

theorem ullToBytes_eq (k x : Nat) : ullToBytes k x = Rfc.toByte x k := by
  induction k generalizing x with
  | zero => rfl
  | succ k ih =>
    rw [ullToBytes, ih, toByte_succ, UInt8_ofNat_and, Nat.shiftRight_eq_div_pow]

theorem toNat_append (a b : Rfc.Bytes) : Rfc.toNat (a ++ b) = Rfc.toNat a * 256 ^ b.length + Rfc.toNat b := by
  induction b using List.reverseRecOn with
  | nil => simp [Rfc.toNat]
  | append_singleton b x ih =>
    rw [← List.append_assoc]
    unfold Rfc.toNat at *
    rw [List.foldl_append, ih]
    simp only [List.foldl_cons, List.foldl_nil, List.length_append, List.length_cons, List.length_nil,
      List.foldl_append]
    ring

theorem toNat_toByte (x k : Nat) : Rfc.toNat (Rfc.toByte x k) = x % 256 ^ k := by
  induction k generalizing x with
  | zero => simp [Rfc.toByte, Rfc.toNat, Nat.mod_one]
  | succ k ih =>
    rw [toByte_succ, toNat_append, ih]
    simp only [List.length_cons, List.length_nil, Rfc.toNat, List.foldl_cons, List.foldl_nil]
    rw [pow_succ' 256 k, Nat.mod_mul]
    simp; ring

theorem toNat_lt (b : Rfc.Bytes) : Rfc.toNat b < 256 ^ b.length := by
  induction b using List.reverseRecOn with
  | nil => simp [Rfc.toNat]
  | append_singleton b x ih =>
    rw [toNat_append]
    simp only [List.length_cons, List.length_nil, Rfc.toNat, List.foldl_cons, List.foldl_nil, List.length_append]
    have := x.toNat_lt
    unfold Rfc.toNat at ih
    rw [Nat.zero_add, pow_one, pow_succ]
    omega

theorem toNat_cons (a : UInt8) (b : Rfc.Bytes) : Rfc.toNat (a :: b) = a.toNat * 256 ^ b.length + Rfc.toNat b := by
  have := toNat_append [a] b
  simpa [Rfc.toNat] using this

theorem toByte_toNat (b : Rfc.Bytes) : Rfc.toByte (Rfc.toNat b) b.length = b := by
  induction b using List.reverseRecOn with
  | nil => rfl
  | append_singleton b x ih =>
    have hx := x.toNat_lt
    rw [List.length_append, List.length_singleton, toByte_succ, toNat_append]
    have h1 : Rfc.toNat [x] = x.toNat := by simp [Rfc.toNat]
    rw [h1, List.length_singleton, pow_one]
    congr 1
    · have : (Rfc.toNat b * 256 + x.toNat) / 256 = Rfc.toNat b := by omega
      rw [this, ih]
    · congr 1
      apply UInt8.toNat_inj.mp
      simp

theorem toNat_injective {a b : Rfc.Bytes} (hl : a.length = b.length) (h : Rfc.toNat a = Rfc.toNat b) : a = b := by
  rw [← toByte_toNat a, ← toByte_toNat b, h, hl]

theorem toByte_mod (x k : Nat) : Rfc.toByte (x % 256 ^ k) k = Rfc.toByte x k := by
  apply toNat_injective
  · simp [toByte_length]
  · simp [toNat_toByte]

theorem toByte_inj {x y k : Nat} (hx : x < 256 ^ k) (hy : y < 256 ^ k) (h : Rfc.toByte x k = Rfc.toByte y k) : x = y := by
  have := congrArg Rfc.toNat h
  rwa [toNat_toByte, toNat_toByte, Nat.mod_eq_of_lt hx, Nat.mod_eq_of_lt hy] at this

/-- The loop of `bytes_to_ull` started with a value whose low bytes are free. -/
theorem bytesToUllLoop_eq (bs : Bytes) (r : Nat) :
    bytesToUllLoop bs (r <<< (8 * bs.length)) = r * 256 ^ bs.length + Rfc.toNat bs := by
  induction bs generalizing r with
  | nil => simp [bytesToUllLoop, Rfc.toNat]
  | cons b bs ih =>
    rw [bytesToUllLoop]
    have h1 : r <<< (8 * (b :: bs).length) ||| b.toNat <<< (8 * bs.length)
        = (r * 256 + b.toNat) <<< (8 * bs.length) := by
      have : r <<< (8 * (b :: bs).length) = (r <<< 8) <<< (8 * bs.length) := by
        rw [← Nat.shiftLeft_add]; congr 1; simp; ring
      rw [this, ← Nat.shiftLeft_or_distrib]
      congr 1
      have hb := b.toNat_lt
      rw [← Nat.shiftLeft_add_eq_or_of_lt (by simpa using hb), Nat.shiftLeft_eq]
    rw [h1, ih, toNat_cons, List.length_cons, pow_succ]
    ring

theorem bytesToUll_eq {bs : Bytes} (h : bs.length ≤ 8) : bytesToUll bs = some (Rfc.toNat bs) := by
  have := bytesToUllLoop_eq bs 0
  simp at this
  simp [bytesToUll, this, Nat.not_lt.mpr h]

/-! Buffers -/

theorem rd_append (x y z : Bytes) {off len : Nat} (ho : off = x.length) (hl : len = y.length) :
    rd (x ++ y ++ z) off len = some y := by
  subst ho hl
  simp [rd]

theorem wr_append (x y z bs : Bytes) {off : Nat} (ho : off = x.length) (hl : bs.length = y.length) :
    wr (x ++ y ++ z) off bs = some (x ++ bs ++ z) := by
  subst ho
  simp [wr, hl]

theorem rd_eq_some_iff {buf : Bytes} {off len : Nat} {r : Bytes} :
    rd buf off len = some r ↔ off + len ≤ buf.length ∧ r = (buf.drop off).take len := by
  simp [rd, eq_comm]

theorem rd_some {buf : Bytes} {off len : Nat} (h : off + len ≤ buf.length) :
    rd buf off len = some ((buf.drop off).take len) := by simp [rd, h]

theorem rd_none {buf : Bytes} {off len : Nat} (h : buf.length < off + len) : rd buf off len = none := by
  simp [rd]; omega

theorem rd_length {buf : Bytes} {off len : Nat} {r : Bytes} (h : rd buf off len = some r) : r.length = len := by
  rw [rd_eq_some_iff] at h
  rw [h.2]; simp; omega

theorem wr_some {buf bs : Bytes} {off : Nat} (h : off + bs.length ≤ buf.length) :
    wr buf off bs = some (buf.take off ++ bs ++ buf.drop (off + bs.length)) := by simp [wr, h]

theorem wr_length {buf bs r : Bytes} {off : Nat} (h : wr buf off bs = some r) : r.length = buf.length := by
  unfold wr at h
  split at h
  · simp only [Option.some.injEq] at h
    rw [← h]; simp; omega
  · simp at h

/-- Split a buffer at two positions. -/
theorem split3 (buf : Bytes) (a b : Nat) :
    buf = buf.take a ++ (buf.drop a).take b ++ buf.drop (a + b) := by
  rw [← List.drop_drop, List.append_assoc, List.take_append_drop, List.take_append_drop]

end Xmss
