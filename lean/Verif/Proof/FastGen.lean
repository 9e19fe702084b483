import Verif.Proof.FastXmss
import Verif.Proof.BdsSafe
/-
One call of the fast single-tree sign function on an arbitrary state.
-/
namespace Xmss

variable {H : Bytes → Bytes} {p : Params}

/-- One call below the last index, whatever the state is, given what the traversal step does. -/
theorem fastXmssSign_gen (f : Fast1 p) (hH : ∀ x, (H x).length = p.n) {k : Key} (hk : k.Valid p) {idx : Nat}
    (hi : idx < 2 ^ p.full_height - 1) {s : BdsState} (sh : Shape p s) (Q : BdsState → Prop) (hQ : ∀ s', Q s' → Shape p s')
    (hs : ∀ a, IsSub a 0 0 → ∃ s1 s2 n, bdsRound H p { s with leaves := 0 } idx k.skSeed k.pubSeed a = some s1 ∧
      bdsTreehashUpdate H p s1 (p.insts / 2) k.skSeed k.pubSeed a = some (s2, n) ∧ Q s2)
    (sm : Bytes) (l0 : Nat) (m : Bytes) (hsm : p.sig_bytes + m.length ≤ sm.length) :
    ∃ s' n, Q s' ∧
      fastXmssSign H p (k.fast p idx [s] []) sm l0 m = some
        { ret := 0
          sk := k.fast p (idx + 1) [s'] []
          sm := Rfc.toByte idx p.index_bytes ++ (suiteOf p H).PRF k.skPrf (Rfc.toByte idx 32) ++
      ((suiteOf p H).wotsSig k.skSeed k.pubSeed ((suiteOf p H).digest ((suiteOf p H).PRF k.skPrf (Rfc.toByte idx 32)) k.root
        idx m) 0 0 idx).flatten ++ s.auth.flatten ++ m ++ sm.drop (p.sig_bytes + m.length)
          smlen := p.sig_bytes + m.length
          leaves := n } := by
  have g := f.good
  have hth := g.th_lt
  have hfh := g.fh_lt
  have hfull := f.full
  rw [hfull] at hi
  have hi1 : idx < 2 ^ p.tree_height := by omega
  have hidx : idx < 256 ^ p.index_bytes := by have := g.idx_fits; rw [hfull] at this; omega
  obtain ⟨s', h', e⟩ := fastXmssSignBody_eq (H := H) (p := p) g hH f.d f.ib (z := []) (y := extBytes [s] [])
    (sm0 := sm.take p.sig_bytes) (old := (sm.drop p.sig_bytes).take m.length) (post := sm.drop (p.sig_bytes + m.length))
    (m := m) (s := { s with leaves := 0 }) (idx := idx) (toByte_length idx p.index_bytes) hk.skSeed hk.skPrf hk.root
    hk.pubSeed (ext1_length sh) (by simp; omega) (by simp; omega) (sh.with_leaves 0) Q hQ
    (by
      intro a ha
      obtain ⟨s1, s2, n, e1, e2, e3⟩ := hs a ha
      refine ⟨s2, ?_, e3⟩
      rw [if_pos (by rw [Nat.one_shiftLeft]; exact hi), show p.insts >>> 1 = p.insts / 2 from rfl]
      simp only [e1, e2, Option.bind_eq_bind, Option.bind_some])
  rw [← split3] at e
  simp only [List.append_nil] at e
  refine ⟨s', s'.leaves, h', ?_⟩
  rw [Key.fast, fastXmssSign, if_neg (by omega)]
  have hds := deserialize_eq (f.extShape sh) (skHead (Rfc.toByte idx p.index_bytes) k.skSeed k.skPrf k.root k.pubSeed) []
    (skHead_length (toByte_length _ _) hk.skSeed hk.skPrf hk.root hk.pubSeed)
  rw [List.append_nil] at hds
  obtain ⟨r1, -⟩ := skPhase (p := p) (extBytes [s] []) (toByte_length idx p.index_bytes) hk.skSeed hk.skPrf hk.root hk.pubSeed 0
  rw [f.ib] at r1
  rw [hds]
  simp only [Option.bind_eq_bind, Option.bind_some, List.map_cons, List.map_nil, List.getElem?_cons_zero]
  rw [f.ib] at *
  simp only [r1, Option.bind_some]
  rw [bytesToUll_eq (by rw [toByte_length]; omega), toNat_toByte, Nat.mod_eq_of_lt hidx]
  simp only [Option.bind_some]
  rw [if_neg (by omega), if_neg (by rw [hfull]; omega), e]
  simp [Key.fast, f.ib]

end Xmss
