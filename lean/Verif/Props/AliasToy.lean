import Verif.Props.AliasOpen
import Verif.Props.Toy
/-
C65: a hash function and a key for which opening in place fails.
-/
namespace Xmss
open Alias

namespace Toy

/-- With the toy hash, the verifier applied to an overwritten signature whose index is in the right half of the tree
computes the index as the root. -/
theorem verifyRoot_altered (root m sig : Bytes) (hr : root.length = 32) (hsig : sig.length = p.sig_bytes) (idx : Nat)
    (hidx : Rfc.toNat (sig.take 4) = idx) (hhalf : idx % 1024 / 512 = 1) :
    S.verifyRoot root zero m (altered p root sig) = Rfc.toByte idx 32 := by
  have g := toy_good
  have hhp : S.hp = 10 := by decide
  have hsb : p.sig_bytes = 4 + 32 + 67 * 32 + 10 * 32 := by decide
  have hlen : S.len = 67 := by decide
  have hRl : (at_ sig p.index_bytes p.n).length = 32 := at_length (len := 32) (by rw [hsig, hsb]; show 4 + 32 ≤ _; decide)
  obtain ⟨a, b, c, hab, ha, hb, hc⟩ : ∃ a b c : Bytes, altered p root sig = a ++ b ++ c ++ Rfc.toByte idx 32 ∧ a.length = 4 + 32 ∧
      b.length = 67 * 32 ∧ c.length = 9 * 32 := by
    obtain ⟨X, hX, hXl⟩ : ∃ X : Bytes, altered p root sig = X ++ Rfc.toByte idx 32 ∧ X.length = 4 + 32 + 67 * 32 + 9 * 32 := by
      refine ⟨sig.take (p.sig_bytes - p.padding_len - 3 * p.n) ++ (Rfc.toByte 2 32 ++ at_ sig p.index_bytes p.n ++ root), ?_, ?_⟩
      · rw [altered, prefixOf]
        have : Rfc.toNat (sig.take p.index_bytes) = idx := hidx
        rw [this]
        simp only [List.append_assoc]
        rfl
      · simp only [List.length_append, List.length_take, toByte_length, hRl, hr, hsig]
        decide
    refine ⟨X.take (4 + 32), (X.drop (4 + 32)).take (67 * 32), X.drop (4 + 32 + 67 * 32), ?_, ?_, ?_, ?_⟩
    · rw [← split3]; exact hX
    · simp; omega
    · simp; omega
    · simp; omega
  have hlast : (Rfc.toByte idx 32).length = 32 := toByte_length _ _
  have hi4 : Rfc.toNat ((altered p root sig).take 4) = idx := by
    rw [altered, List.take_append_of_le_length (by rw [List.length_take, hsig]; decide), List.take_take]
    exact hidx
  rw [Rfc.Suite.verifyRoot]
  show S.verifyLayers zero 1 0 (Rfc.toNat (List.take 4 _)) (S.digest _ root (Rfc.toNat (List.take 4 _)) m) (List.drop (4 + 32) _) = _
  rw [hi4]
  generalize S.digest _ root idx m = M'
  simp only [Rfc.Suite.verifyLayers, Rfc.Suite.rootFromSig, hhp]
  have hd : ((altered p root sig).drop (4 + 32)).drop (S.len * S.n) = c ++ Rfc.toByte idx 32 := by
    rw [hab, List.append_assoc (a ++ b), List.append_assoc a, List.drop_left' ha, List.drop_left' (by rw [hb]; decide)]
  rw [hd]
  have hbl : Rfc.blocks S.n 10 (c ++ Rfc.toByte idx 32) = Rfc.blocks 32 9 c ++ [Rfc.toByte idx 32] := by
    show Rfc.blocks 32 10 _ = _
    rw [Rfc.blocks, Rfc.blocks, List.range_succ, List.map_append]
    congr 1
    · apply List.map_congr_left
      intro j hj
      have := List.mem_range.mp hj
      rw [List.drop_append_of_le_length (by omega), List.take_append_of_le_length (by simp; omega)]
    · simp only [List.map_cons, List.map_nil]
      rw [List.drop_left' hc, List.take_of_length_le (by omega)]
  rw [hbl, climb_append]
  have hbl9 : (Rfc.blocks 32 9 c).length = 9 := by simp [Rfc.blocks]
  have hodd : children (idx % 2 ^ 10) 9 = fun x a => (a, x) := by
    funext x a
    rw [children, if_neg (by norm_num; omega)]
  simp only [hbl9, hodd]
  exact randHash_eq _ _ _ hlast

/-- **C65 (opening, refuted for `m == sm`).**  There are a hash function and an honest key for which every signature made
with an index in the right half of the tree is rejected when it is opened in place, and accepted when it is not. -/
theorem C65_in_place_fails (idx : Nat) (h1 : 512 ≤ idx) (h2 : idx < 1023) (msg sm0 mbuf mem : Bytes) (l0 sm : Nat)
    (hsm0 : sm0.length = p.sig_bytes + msg.length) (h64 : p.sig_bytes + msg.length < 2 ^ 64)
    (hmb : p.sig_bytes + msg.length ≤ mbuf.length) :
    key.Valid p ∧ key.Honest S ∧ coreHash prims p.func p.n = some hash ∧
    ∃ o, xmssSign prims (key.sk p 1 idx) sm0 l0 msg = some o ∧ o.ret = 0 ∧
      (∃ r, xmssSignOpen prims mbuf l0 o.sm o.smlen (key.pk 1) = some r ∧ r.ret = 0 ∧ r.m.take r.mlen = msg) ∧
      (sm + o.sm.length ≤ mem.length → at_ mem sm o.sm.length = o.sm →
        ∃ r, apiOpenIn prims parseXmss mem sm l0 sm o.smlen (key.pk 1) = some r ∧ r.ret = -1) := by
  have hp : Family.xmss.parse 1 = some p := rfl
  have hH : coreHash prims p.func p.n = some hash := rfl
  have g := toy_good
  have hfh : p.full_height = 10 := rfl
  have hidx : idx < 2 ^ p.full_height - 1 := by rw [hfh]; omega
  refine ⟨key_valid, key_honest, hH, ?_⟩
  have hs := C23_sign_is_rfc (P := prims) hp hH key key_valid idx hidx sm0 l0 msg hsm0
  set sig := S.sign key.skSeed key.skPrf key.root key.pubSeed idx msg with hsig
  have hl : sig.length = p.sig_bytes := sign_length g hash_length _ _ _ _ _ _
  refine ⟨_, hs, rfl, ?_, ?_⟩
  · have hv : S.verifyRoot key.root key.pubSeed msg sig = key.root := by
      rw [hsig, verifyRoot_sign g hash_length _ _ _ _ _ _ (by have := g.idx_fits; omega),
        Nat.div_eq_of_lt (show idx < 2 ^ p.full_height by omega)]
      have hh : key.root = S.treeRoot key.skSeed key.pubSeed (p.d - 1) 0 := key_honest
      exact hh.symm
    obtain ⟨r, a, b⟩ := C24_open_output (P := prims) hp key key_valid.root key_valid.pubSeed sig msg mbuf l0 hl h64 hmb
    obtain ⟨r', a', _, b'⟩ := C23_open_is_rfc (P := prims) hp hH key key_valid.root key_valid.pubSeed sig msg mbuf l0 hl h64 hmb
    rw [a] at a'
    cases a'
    have h0 := b'.mpr hv
    rcases b with b | b
    · exact ⟨r, a, h0, by rw [b.2.1]; exact b.2.2⟩
    · rw [b.1] at h0; exact absurd h0 (by decide)
  · intro hin hat
    have hol : (sig ++ msg).length = p.sig_bytes + msg.length := by rw [List.length_append, hl]
    show ∃ r, apiOpenIn prims parseXmss mem sm l0 sm (p.sig_bytes + msg.length) (key.pk 1) = some r ∧ r.ret = -1
    have hin' : sm + (p.sig_bytes + msg.length) ≤ mem.length := by rw [← hol]; exact hin
    have hat' : at_ mem sm (p.sig_bytes + msg.length) = sig ++ msg := by rw [← hol]; exact hat
    have es : at_ mem sm p.sig_bytes = sig := by
      rw [← at_take mem sm p.sig_bytes (p.sig_bytes + msg.length) (by omega), hat']; exact List.take_left' hl
    have em : at_ mem (sm + p.sig_bytes) msg.length = msg := by
      rw [← at_at mem sm p.sig_bytes msg.length (p.sig_bytes + msg.length) (by omega), hat', at_, List.drop_left' hl,
        List.take_length]
    obtain ⟨a1, _, _⟩ := C65_open_in_place (f := .xmss) (P := prims) hp hH key key_valid.root key_valid.pubSeed mem l0 sm
      msg.length h64 hin'
    rw [es, em] at a1
    refine ⟨_, a1 ?_, rfl⟩
    rw [Rfc.Suite.verify]
    have hi : Rfc.toNat (sig.take 4) = idx := by
      rw [hsig, Rfc.Suite.sign]
      simp only [List.append_assoc]
      rw [List.take_left' (show (Rfc.toByte idx S.idxLen).length = 4 from toByte_length _ _), toNat_toByte, Nat.mod_eq_of_lt]
      show idx < 256 ^ 4
      omega
    have := verifyRoot_altered key.root msg sig (by simp [key]) hl idx hi (by omega)
    rw [show key.pubSeed = zero from rfl, this]
    intro he
    have h0 : (Rfc.toByte idx 32)[0]? = key.root[0]? := by rw [he]
    have hz : idx / 256 ^ 31 = 0 := Nat.div_eq_of_lt (by
      have : 256 ^ 2 ≤ 256 ^ 31 := Nat.pow_le_pow_right (by omega) (by omega)
      omega)
    have e1 : (Rfc.toByte idx 32)[0]? = some (UInt8.ofNat (idx / 256 ^ 31)) := rfl
    rw [e1, hz] at h0
    exact absurd h0 (by decide)

end Toy

end Xmss
