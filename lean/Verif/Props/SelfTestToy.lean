import Verif.Props.SelfTest
/-
C62: test/xmss_fast returns -1 with the toy hash function of Props/Toy, and the programs that the Makefile builds.
-/
namespace Xmss.Toy

/-- The verifier applied to the last signature of the fast implementation computes the all-zero root. -/
theorem verifyRoot_fastLast (root m : Bytes) : S.verifyRoot root zero m (fastLastSig p hash m) = zero := by
  have g := toy_good
  have hH := hash_length
  have hhp : S.hp = 10 := by decide
  have l1 : (Rfc.toByte (2 ^ p.full_height - 1) S.idxLen).length = 4 := toByte_length _ _
  have l2 : (S.PRF zero (Rfc.toByte (2 ^ p.full_height - 1) 32)).length = 32 := hash_length _
  set R := S.PRF zero (Rfc.toByte (2 ^ p.full_height - 1) 32) with hR
  set M := S.digest R zero (2 ^ p.full_height - 1) m with hM
  obtain ⟨W, hW⟩ : ∃ W, W = (S.wotsSig zero zero M 0 ((2 ^ p.full_height - 1) / 2 ^ p.tree_height)
      ((2 ^ p.full_height - 1) % 2 ^ p.tree_height)).flatten := ⟨_, rfl⟩
  have hlast : fastLastSig p hash m = Rfc.toByte (2 ^ p.full_height - 1) S.idxLen ++ (R ++ (W ++ List.replicate (10 * 32) 0)) := by
    rw [hW, ← List.append_assoc, ← List.append_assoc]
    rfl
  have hw : W.length = S.len * S.n := by
    rw [hW, wotsSig_flat_length g hH]; decide
  have hidx : Rfc.toNat (Rfc.toByte (2 ^ p.full_height - 1) S.idxLen) = 1023 := by decide +kernel
  simp only [Rfc.Suite.verifyRoot]
  rw [hlast]
  show S.verifyLayers zero 1 0 (Rfc.toNat (List.take 4 _)) (S.digest _ root (Rfc.toNat (List.take 4 _)) m) (List.drop (4 + 32) _) = _
  rw [List.take_left' l1, hidx, ← List.drop_drop, List.drop_left' l1, List.drop_left' l2]
  generalize S.digest (List.take S.n (List.drop S.idxLen (Rfc.toByte (2 ^ p.full_height - 1) S.idxLen ++
    (R ++ (W ++ List.replicate (10 * 32) 0))))) root 1023 m = M'
  simp only [Rfc.Suite.verifyLayers, Rfc.Suite.rootFromSig, hhp]
  rw [List.drop_left' hw]
  have hb := blocks_flatten 32 (List.replicate 10 zero) [] (by intro x hx; rw [List.eq_of_mem_replicate hx]; simp)
  rw [List.append_nil, List.length_replicate] at hb
  have hz : List.replicate (10 * 32) (0 : UInt8) = (List.replicate 10 zero).flatten := by decide +kernel
  rw [show S.n = 32 from rfl, hz, hb, show List.replicate 10 zero = List.replicate 9 zero ++ [zero] from rfl,
    climb_append]
  have hodd : children (1023 % 2 ^ 10) 9 = fun x a => (a, x) := by
    funext x a
    rw [children, if_neg (by decide)]
  simp only [List.length_replicate, hodd]
  exact randHash_eq _ _ _ (by simp)

/-- The random bytes from which key generation makes `Toy.key`. -/
def seed (_ : Nat) : Bytes := key.skSeed ++ key.skPrf ++ key.pubSeed

/-- **C62 is false of test/xmss_fast.**  There are a hash function and random bytes for which the program, as the Makefile
builds it (XMSS-SHA2_10_256, 1024 signatures), returns -1 — for every message and all uninitialised contents.  No flipped bit
is needed for that: open rejects the last signature. -/
theorem C62_fails (pf : Params) (hpf : parseXmssFast 1 = some pf) (inv : Bool) (pk0 : Bytes) (s0 : TestState)
    (hpk : pk0.length = 4 + pf.pk_bytes) (hsk : s0.sk.length = 4 + pf.sk_bytes) (hsm : s0.sm.length = p.sig_bytes + 32)
    (hmo : s0.mout.length = p.sig_bytes + 32) (m : Bytes) (hm : m.length = 32) :
    parseXmss 1 = some p ∧
    xmssTest (xmssKeypairFast prims) (fastSign (xmssSignFast prims)) (Family.signOpenFast prims .xmss) p 1 1024 inv pk0 s0 seed m =
      some (-1) := by
  have hp : Family.xmss.parse 1 = some p := rfl
  have hpf' : Family.xmss.parseFast 1 = some pf := hpf
  have hH : coreHash prims p.func p.n = some hash := rfl
  have hd : p.d ≤ p.tree_height / 2 + 2 := by decide +kernel
  refine ⟨rfl, ?_⟩
  obtain ⟨ret, k, sk, hv, hh, hsd, e1, e2, e3, e4⟩ := xmss_test_last (P := prims) hp hpf' hH hd inv pk0 s0 hpk hsk hsm hmo seed
    (by decide +kernel) m hm
  have hk1 : key.skSeed = k.skSeed ∧ key.skPrf = k.skPrf ∧ key.pubSeed = k.pubSeed := by
    have hsd : (key.skSeed ++ key.skPrf) ++ key.pubSeed = (k.skSeed ++ k.skPrf) ++ k.pubSeed := hsd
    have v := key_valid
    have a := List.append_inj hsd (by rw [List.length_append, List.length_append, v.skSeed, v.skPrf, hv.skSeed, hv.skPrf])
    have b := List.append_inj a.1 (by rw [v.skSeed, hv.skSeed])
    exact ⟨b.1, b.2, a.2⟩
  have hroot : k.root = key.root := by
    have h1 := key_honest
    rw [Key.Honest] at h1 hh
    rw [h1, hh, hk1.1, hk1.2.2]
  rcases e3 with h | h
  · exfalso
    have h2 := e4 h
    rw [← hk1.2.2, show key.pubSeed = zero from rfl, verifyRoot_fastLast, hroot] at h2
    exact absurd h2 (by simp [key, zero, List.replicate_succ])
  · rw [← h]; exact e2

end Xmss.Toy

namespace Xmss

/-! The instances that the Makefile builds meet the hypotheses. -/

-- the names in the programs
example : xmssStrToOid "XMSS-SHA2_10_256" = some 1 ∧ xmssmtStrToOid "XMSSMT-SHA2_20/2_256" = some 1 := by decide +kernel
-- test/xmss and test/xmssmt: 16 signatures, also with XMSS_TEST_INVALIDSIG
example : ∃ p, Family.xmss.parse 1 = some p ∧ 16 ≤ 2 ^ p.full_height - 1 ∧ 16 ≤ 256 ^ (p.index_bytes - 1) := by
  refine ⟨_, rfl, ?_, ?_⟩ <;> decide +kernel
example : ∃ p, Family.xmssmt.parse 1 = some p ∧ 16 ≤ 2 ^ p.full_height - 1 ∧ 16 ≤ 256 ^ (p.index_bytes - 1) := by
  refine ⟨_, rfl, ?_, ?_⟩ <;> decide +kernel
-- test/xmssmt_fast: 1024 signatures
example : ∃ p pf, Family.xmssmt.parse 1 = some p ∧ Family.xmssmt.parseFast 1 = some pf ∧ p.d ≤ p.tree_height / 2 + 2 ∧
    1024 ≤ 2 ^ p.full_height - 1 ∧ 1024 ≤ 256 ^ (p.index_bytes - 1) := by
  refine ⟨_, _, rfl, rfl, ?_, ?_, ?_⟩ <;> decide +kernel
-- test/xmss_fast: 1024 signatures are one too many
example : ∃ p pf, Family.xmss.parse 1 = some p ∧ Family.xmss.parseFast 1 = some pf ∧ p.d ≤ p.tree_height / 2 + 2 ∧
    1024 = 2 ^ p.full_height := by
  refine ⟨_, _, rfl, rfl, ?_, ?_⟩ <;> decide +kernel
-- test/maxsigsxmss and test/maxsigsxmssmt
example : ∃ pf, Family.xmss.parseFast 1 = some pf ∧ pf.d ≤ pf.tree_height / 2 + 2 ∧ pf.full_height ≠ 40 ∧
    1024 = 2 ^ pf.full_height := by
  refine ⟨_, rfl, ?_, ?_, ?_⟩ <;> decide +kernel
example : ∃ pf, Family.xmssmt.parseFast 1 = some pf ∧ pf.d ≤ pf.tree_height / 2 + 2 ∧ pf.full_height ≠ 40 ∧
    1048576 = 2 ^ pf.full_height := by
  refine ⟨_, rfl, ?_, ?_, ?_⟩ <;> decide +kernel

end Xmss
