import Verif.Props.LowSim
import Verif.Props.Toy
/-
C83, continued: key generation, signing and verification one after the other on five freshly created buffers; concrete
instances of the hypotheses of C83.
-/
namespace Xmss.Low

variable {P : Prims} {f : Family} {oid : Nat} {p : Params} {H : Bytes → Bytes}

/-- The memory of a program with five separate buffers: public key, secret key, signed message, message, output.  Only
the message is initialised. -/
def fresh (p : Params) (M : Bytes) : Mem :=
  [List.replicate (4 + p.pk_bytes) none, List.replicate (4 + p.sk_bytes) none, List.replicate (p.sig_bytes + M.length) none,
    M.map some, List.replicate (p.sig_bytes + M.length) none]

theorem room_fresh {m : Mem} {b len : Nat} {o : Block} (h : m[b]? = some o) (hl : o.length = len) : Room m ⟨b, 0⟩ len :=
  ⟨o, h, by simp [hl]⟩

theorem apart_blk {b c i j x y : Nat} (h : b ≠ c) : Apart ⟨b, i⟩ x ⟨c, j⟩ y := Or.inl h

/-- **C83 (whole use).**  For every accepted OID, all random bytes and every message: key generation, signing and
verification on five fresh buffers (only the message initialised) are defined behaviour, all return 0, and at the end
the output buffer starts with the message, and the message itself and the public key are what they were. -/
theorem C83_whole_use (hp : f.parse oid = some p) (M : Bytes) (hlen : p.sig_bytes + M.length < 2 ^ 64) (rnd : Params → Bytes)
    (hr : (rnd p).length = 3 * p.n) (l0 l1 : Nat) :
    ∃ (pk : Bytes) (m1 m2 m3 : Mem),
      apiKeypair P f.parse (fresh p M) ⟨0, 0⟩ ⟨1, 0⟩ oid rnd = some (0, m1) ∧ Holds m1 ⟨0, 0⟩ pk ∧ pk.length = 4 + p.pk_bytes ∧
      apiSign P f.parse m1 ⟨1, 0⟩ ⟨2, 0⟩ l0 ⟨3, 0⟩ M.length = some (0, p.sig_bytes + M.length, m2) ∧
      apiOpen P f.parse m2 ⟨4, 0⟩ l1 ⟨2, 0⟩ (p.sig_bytes + M.length) ⟨0, 0⟩ = some (0, M.length, m3) ∧
      Holds m3 ⟨4, 0⟩ M ∧ Holds m3 ⟨3, 0⟩ M ∧ Holds m3 ⟨0, 0⟩ pk := by
  obtain ⟨g, hskb, ho, H, hH⟩ := Family.facts (P := P) hp
  have hHl := Family.hash_length hp hH
  have hfh : 2 ≤ 2 ^ p.full_height := by
    have h1 : 1 ≤ p.full_height := by rw [← g.height]; exact Nat.mul_pos g.th_pos g.d_pos
    calc 2 = 2 ^ 1 := rfl
      _ ≤ 2 ^ p.full_height := Nat.pow_le_pow_right (by omega) h1
  have hMb : Holds (fresh p M) ⟨3, 0⟩ M := by
    rw [holds_iff]
    exact read_full rfl
  obtain ⟨k, m1, k1, k2, k3, k4, k5, k6, k7, k8, k9⟩ := C83_keypair hp hH (fresh p M) ⟨0, 0⟩ ⟨1, 0⟩
    (room_fresh rfl (by simp)) (room_fresh rfl (by simp)) (apart_blk (by omega)) rnd _ _ _ (split3 (rnd p) p.n p.n)
    (by simp; omega) (by simp; omega) (by simp; omega)
  have hpkl : (k.pk oid).length = 4 + p.pk_bytes := by
    rw [Key.pk]; simp only [List.length_append, toByte_length, k5.root, k5.pubSeed, g.pk_eq]; omega
  have keep1 : ∀ {x : Bytes} {b : Nat}, b ≠ 0 → b ≠ 1 → Holds (fresh p M) ⟨b, 0⟩ x → Holds m1 ⟨b, 0⟩ x := by
    intro x b h0 h1 h
    refine h.keep k9 ?_
    intro r hr
    simp only [List.mem_cons, List.not_mem_nil, or_false] at hr
    rcases hr with rfl | rfl
    · exact apart_blk h0
    · exact apart_blk h1
  have r2 : Room (fresh p M) ⟨2, 0⟩ (p.sig_bytes + M.length) := room_fresh rfl (by simp)
  have r4 : Room (fresh p M) ⟨4, 0⟩ (p.sig_bytes + M.length) := room_fresh rfl (by simp)
  obtain ⟨m2, s1, s2, s3, s4, _, _⟩ := C83_sign hp hH k k5 0 (by positivity) m1 ⟨1, 0⟩ ⟨2, 0⟩ ⟨3, 0⟩ l0 M k8 (r2.keep k9)
    (keep1 (by omega) (by omega) hMb) (apart_blk (by omega)) (apart_blk (by simp)) hlen
  rw [if_pos (by omega)] at s1
  obtain ⟨t1, t2⟩ := s4 (by omega)
  have hsl := sign_length g hHl k.skSeed k.skPrf k.root k.pubSeed 0 M
  have keep2 : ∀ {x : Bytes} {b : Nat}, b ≠ 1 → b ≠ 2 → Holds m1 ⟨b, 0⟩ x → Holds m2 ⟨b, 0⟩ x := by
    intro x b h0 h1 h
    refine h.keep t2 ?_
    intro r hr
    simp only [List.mem_cons, List.not_mem_nil, or_false] at hr
    rcases hr with rfl | rfl
    · exact Or.inl h0
    · exact apart_blk h1
  have hpk2 : Holds m2 ⟨0, 0⟩ (k.pk oid) := keep2 (by omega) (by omega) k7
  obtain ⟨m3, u1, u2, _⟩ := C83_open hp hH k k5.root k5.pubSeed m2 ⟨4, 0⟩ ⟨2, 0⟩ ⟨0, 0⟩ l1 _ M hpk2
    (t1.append (by rw [hsl]; exact s3)) hsl ((r4.keep k9).keep t2) (apart_blk (by omega)) (apart_blk (by omega)) hlen
  obtain ⟨v1, v2⟩ := u2 (by
    rw [Rfc.Suite.verify, verifyRoot_sign g hHl _ _ _ _ _ _ (by positivity), Nat.zero_div, k4]
    rfl)
  have keep3 : ∀ {x : Bytes} {b : Nat}, b ≠ 4 → Holds m2 ⟨b, 0⟩ x → Holds m3 ⟨b, 0⟩ x := by
    intro x b h0 h
    refine h.keep u1 ?_
    intro r hr
    rw [List.mem_singleton] at hr
    subst hr
    exact apart_blk h0
  exact ⟨k.pk oid, m1, m2, m3, k6, k7, hpkl, s1, v1, v2, keep3 (by omega) (keep2 (by omega) (by omega) (keep1 (by omega) (by omega) hMb)),
    keep3 (by omega) hpk2⟩

-- Instances: XMSS-SHA2_10_256 and XMSSMT-SHA2_20/2_256 with the toy hash, the message "abc", seeds all 7.
example : ∃ (pk : Bytes) (m1 m2 m3 : Mem),
    apiKeypair Toy.prims Family.xmss.parse (fresh Toy.p [97, 98, 99]) ⟨0, 0⟩ ⟨1, 0⟩ 1 (fun _ => List.replicate 96 7) = some (0, m1) ∧
    Holds m1 ⟨0, 0⟩ pk ∧ pk.length = 4 + Toy.p.pk_bytes ∧
    apiSign Toy.prims Family.xmss.parse m1 ⟨1, 0⟩ ⟨2, 0⟩ 0 ⟨3, 0⟩ 3 = some (0, Toy.p.sig_bytes + 3, m2) ∧
    apiOpen Toy.prims Family.xmss.parse m2 ⟨4, 0⟩ 0 ⟨2, 0⟩ (Toy.p.sig_bytes + 3) ⟨0, 0⟩ = some (0, 3, m3) ∧
    Holds m3 ⟨4, 0⟩ [97, 98, 99] ∧ Holds m3 ⟨3, 0⟩ [97, 98, 99] ∧ Holds m3 ⟨0, 0⟩ pk :=
  C83_whole_use (f := .xmss) (oid := 1) (p := Toy.p) (P := Toy.prims) rfl [97, 98, 99]
    (by have : Toy.p.sig_bytes = 2500 := by decide
        rw [this]; norm_num)
    (fun _ => List.replicate 96 7) (by decide) 0 0

-- Two buffers inside one object: the public key directly followed by the secret key.
example (m : Mem) (h : m[5]? = some (List.replicate 204 none)) : ∃ (k : Key) (m' : Mem),
    apiKeypair Toy.prims Family.xmss.parse m ⟨5, 0⟩ ⟨5, 68⟩ 1 (fun _ => List.replicate 96 7) = some (0, m') ∧
    Holds m' ⟨5, 68⟩ (k.sk Toy.p 1 0) := by
  have h1 : Toy.p.pk_bytes = 64 := by decide
  have h2 : Toy.p.sk_bytes = 132 := by decide
  obtain ⟨k, m', _, _, _, _, _, e1, _, e2, _⟩ := C83_keypair (f := .xmss) (oid := 1) (p := Toy.p) (P := Toy.prims) (H := Toy.hash)
    rfl rfl m ⟨5, 0⟩ ⟨5, 68⟩ ⟨_, h, by rw [h1, List.length_replicate]; exact Nat.le_of_ble_eq_true rfl⟩
    ⟨_, h, by rw [h2, List.length_replicate]⟩ (Or.inr (Or.inl (by rw [h1]))) (fun _ => List.replicate 96 7)
    (List.replicate 32 7) (List.replicate 32 7) (List.replicate 32 7) (by decide) (by decide) (by decide) (by decide)
  exact ⟨k, m', e1, e2⟩

end Xmss.Low
