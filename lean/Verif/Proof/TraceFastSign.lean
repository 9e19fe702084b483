import Verif.Proof.TraceKeygen
/-
The hash calls of a whole sign call of the fast implementation, on any key with any traversal state.
-/
namespace Xmss
open Tr

variable {H : Bytes → Bytes} {p : Params}

/-- The hash calls for the message and its WOTS signature. -/
def headCalls (p : Params) (H : Bytes → Bytes) (k : Key) (idx : Nat) (m : Bytes) : List Nat :=
  Calls.prf p ++ Calls.msg p m.length ++
    wotsCalls p H ((suiteOf p H).digest ((suiteOf p H).PRF k.skPrf (Rfc.toByte idx 32)) k.root idx m)

theorem zero_valid : (Key.zero p).Valid p := ⟨by simp [Key.zero], by simp [Key.zero], by simp [Key.zero], by simp [Key.zero]⟩

theorem fastXmssSignT_lt (f : Fast1 p) (hH : ∀ x, (H x).length = p.n) {k : Key} (hk : k.Valid p) {idx : Nat}
    (hi : idx < 2 ^ p.full_height - 1) {s : BdsState} (sh : Shape p s) (sm : Bytes) (l0 : Nat) (m : Bytes)
    (hsm : p.sig_bytes + m.length ≤ sm.length) :
    ∃ (a : Addr) (F : BdsState → FastOut), fastXmssSignT H p (k.fast p idx [s] []) sm l0 m = tell (headCalls p H k idx m)
        (xmssTraverseT H p k.skSeed k.pubSeed idx { s with leaves := 0 } a >>= fun s' => pure (F s')) ∧
      ∀ s', (F s').sk = k.fast p (idx + 1) [s'] [] ∧ (F s').leaves = s'.leaves ∧ (F s').ret = 0 := by
  have g := f.good
  have hth := g.th_lt
  have hfh := g.fh_lt
  have hfull := f.full
  rw [hfull] at hi
  have hidx : idx < 256 ^ p.index_bytes := by have := g.idx_fits; rw [hfull] at this; omega
  obtain ⟨a, ha, e⟩ := fastXmssSignBodyT_bind (H := H) (p := p) g hH f.d f.ib (z := []) (y := extBytes [s] [])
    (sm0 := sm.take p.sig_bytes) (old := (sm.drop p.sig_bytes).take m.length) (post := sm.drop (p.sig_bytes + m.length))
    (m := m) (s := { s with leaves := 0 }) (idx := idx) (toByte_length idx p.index_bytes) hk.skSeed hk.skPrf hk.root
    hk.pubSeed (ext1_length sh) (by simp; omega) (by simp; omega) (sh.with_leaves 0).auth_flat
  have e := e (fun s' h' => (xmssTraverse_len g hH (sh.with_leaves 0).len h').bytes)
  rw [← split3] at e
  simp only [List.append_nil] at e
  have hds := deserialize_eq (f.extShape sh) (skHead (Rfc.toByte idx p.index_bytes) k.skSeed k.skPrf k.root k.pubSeed) []
    (skHead_length (toByte_length _ _) hk.skSeed hk.skPrf hk.root hk.pubSeed)
  rw [List.append_nil] at hds
  obtain ⟨r1, -⟩ := skPhase (p := p) (extBytes [s] []) (toByte_length idx p.index_bytes) hk.skSeed hk.skPrf hk.root hk.pubSeed 0
  have r1' : rd (skHead (Rfc.toByte idx p.index_bytes) k.skSeed k.skPrf k.root k.pubSeed ++ extBytes [s] []) 0 4 =
      some (Rfc.toByte idx p.index_bytes) := by rw [← f.ib]; rw [f.ib] at r1 ⊢; exact r1
  refine ⟨a, ?_, ?_, ?_⟩
  rotate_left
  · rw [Key.fast, fastXmssSignT, if_neg (by omega), hds]
    trs [List.map_cons, List.map_nil, List.getElem?_cons_zero, r1', bytesToUll_eq (show (Rfc.toByte idx p.index_bytes).length ≤ 8 by rw [toByte_length]; exact g.idx_le), toNat_toByte, Nat.mod_eq_of_lt hidx]
    rw [if_neg (by omega), if_neg (by rw [hfull]; omega)]
    exact e
  · intro s'
    exact ⟨rfl, rfl, rfl⟩

theorem fastXmssSignT_last (f : Fast1 p) (hH : ∀ x, (H x).length = p.n) {k : Key} (hk : k.Valid p) {s : BdsState}
    (sh : Shape p s) (sm : Bytes) (l0 : Nat) (m : Bytes) (hsm : p.sig_bytes + m.length ≤ sm.length) :
    ∃ o : FastOut, fastXmssSignT H p (k.fast p (2 ^ p.full_height - 1) [s] []) sm l0 m =
      mk o (headCalls p H (Key.zero p) (2 ^ p.full_height - 1) m) ∧ o.ret = 0 ∧ o.leaves = 0 := by
  have g := f.good
  have hth := g.th_lt
  have hfh := g.fh_lt
  have hfull := f.full
  have hpos : 0 < 2 ^ p.full_height := Nat.two_pow_pos _
  obtain ⟨idx, hidx⟩ : ∃ idx, idx = 2 ^ p.full_height - 1 := ⟨_, rfl⟩
  rw [← hidx]
  have hlt : idx < 256 ^ p.index_bytes := by have := g.idx_fits; omega
  have hz : (Key.zero p).Valid p := zero_valid
  have shw : Shape p (BdsState.wipe { s with leaves := 0 }) := (sh.with_leaves 0).wipe
  obtain ⟨a, ha, e⟩ := fastXmssSignBodyT_bind (H := H) (p := p) g hH f.d f.ib (z := []) (y := List.replicate (bdsStateBytes p) 0)
    (ib := List.replicate p.index_bytes 0xFF)
    (sm0 := sm.take p.sig_bytes) (old := (sm.drop p.sig_bytes).take m.length) (post := sm.drop (p.sig_bytes + m.length))
    (m := m) (s := (BdsState.wipe { s with leaves := 0 })) (idx := idx) (by simp) hz.skSeed hz.skPrf hz.root
    hz.pubSeed (by simp) (by simp; omega) (by simp; omega) shw.auth_flat
  have e := e (fun s' h' => (xmssTraverse_len g hH shw.len h').bytes)
  rw [← split3] at e
  simp only [List.append_nil] at e
  have hds := deserialize_eq (f.extShape sh) (skHead (Rfc.toByte idx p.index_bytes) k.skSeed k.skPrf k.root k.pubSeed) []
    (skHead_length (toByte_length _ _) hk.skSeed hk.skPrf hk.root hk.pubSeed)
  rw [List.append_nil] at hds
  obtain ⟨r1, -⟩ := skPhase (p := p) (extBytes [s] []) (toByte_length idx p.index_bytes) hk.skSeed hk.skPrf hk.root hk.pubSeed 0
  have r1' : rd (skHead (Rfc.toByte idx p.index_bytes) k.skSeed k.skPrf k.root k.pubSeed ++ extBytes [s] []) 0 4 =
      some (Rfc.toByte idx p.index_bytes) := by rw [← f.ib]; rw [f.ib] at r1 ⊢; exact r1
  have hw : wipeKey p (skHead (Rfc.toByte idx p.index_bytes) k.skSeed k.skPrf k.root k.pubSeed ++ extBytes [s] []) =
      some (skHead (List.replicate p.index_bytes 0xFF) (Key.zero p).skSeed (Key.zero p).skPrf (Key.zero p).root (Key.zero p).pubSeed ++
      List.replicate (bdsStateBytes p) 0) := by
    rw [← wipe_head]
    simp only [skHead, List.append_assoc]
    apply wipeKey_eq _ _ (toByte_length _ _) (l := 4 * p.n + bdsStateBytes p)
    · simp only [List.length_append, hk.skSeed, hk.skPrf, hk.root, hk.pubSeed, ext1_length sh]; omega
    · rw [f.sk, fastSkBytes, f.d]; omega
  rw [xmssTraverseT, if_neg (by rw [Nat.one_shiftLeft, ← hfull]; omega)] at e
  refine ⟨?_, ?_, ?_⟩
  rotate_left
  · rw [Key.fast, fastXmssSignT, if_neg (by omega), hds]
    trs [List.map_cons, List.map_nil, List.getElem?_cons_zero, r1', bytesToUll_eq (show (Rfc.toByte idx p.index_bytes).length ≤ 8 by rw [toByte_length]; exact g.idx_le), toNat_toByte, Nat.mod_eq_of_lt hlt]
    rw [if_neg (by omega), if_pos (by omega), hw]
    trsimp
    rw [if_neg (by omega), e]
    trsimp
    rfl
  · exact ⟨rfl, rfl⟩

theorem fastXmssSignT_over (f : Fast1 p) {ib body : Bytes} (hib : ib.length = p.index_bytes)
    (hb : p.index_bytes + body.length = p.sk_bytes) (hi : 2 ^ p.full_height ≤ Rfc.toNat ib) (sm : Bytes) (l0 : Nat) (m : Bytes) :
    ∃ o : FastOut, fastXmssSignT H p (ib ++ body) sm l0 m = (mk o [] : Tr FastOut) ∧ o.ret = -2 ∧ o.leaves = 0 := by
  have g := f.good
  have hth := g.th_lt
  have hfh := g.fh_lt
  have hpos : 0 < 2 ^ p.full_height := Nat.two_pow_pos _
  obtain ⟨states, sigs, e, sh, _, _⟩ := deserialize_any (p := p) (ib ++ body)
    (by rw [List.length_append, hib, hb, f.sk])
  have hst0 : 0 < states.length := by have := sh.states_len; rw [f.d] at this; omega
  refine ⟨?_, ?_, ?_⟩
  rotate_left
  · rw [fastXmssSignT, if_neg (by omega), e]
    have r1 : rd (ib ++ body) 0 4 = some ib := rd_mid [] body (by simp) rfl (by rw [hib, f.ib])
    trs [List.getElem?_eq_getElem hst0, r1, bytesToUll_eq (show ib.length ≤ 8 by rw [hib, f.ib]; omega)]
    rw [if_neg (by omega), if_pos (by omega), wipeKey_eq ib body hib rfl hb.symm]
    trsimp
    rw [if_pos (by omega)]
  · exact ⟨rfl, rfl⟩

/-! ### Several trees -/

theorem ExtShape.leaves0 {states : List BdsState} {sigs : List Bytes} (sh : ExtShape p states sigs) :
    ExtShape p (states.map fun s => { s with leaves := 0 }) sigs :=
  { sh with states_len := by simpa using sh.states_len
            states_mem := by
              intro s hs
              obtain ⟨t, ht, rfl⟩ := List.mem_map.mp hs
              exact (sh.states_mem t ht).with_leaves 0 }

theorem fastXmssmtSignT_lt (f : FastMt p) (hH : ∀ x, (H x).length = p.n) {k : Key} (hk : k.Valid p) {idx : Nat}
    (hi : idx < 2 ^ p.full_height - 1) {states : List BdsState} {sigs : List Bytes} (sh : ExtShape p states sigs) (sm : Bytes) (l0 : Nat)
    (m : Bytes) (hsm : p.sig_bytes + m.length ≤ sm.length) :
    ∃ (oa : Addr) (F : MtLocals → FastOut), oa.a3 = UInt32.ofNat 0 ∧ fastXmssmtSignT H p (k.fast p idx states sigs) sm l0 m = tell (headCalls p H k idx m)
        (mtTraverseT H p k.skSeed k.pubSeed idx (states.map fun s => { s with leaves := 0 }) sigs oa >>= fun v => pure (F v)) ∧
      ∀ v, (F v).sk = k.fast p (idx + 1) v.states v.sigs ∧ (F v).leaves = totalLeaves v.states ∧ (F v).ret = 0 := by
  have g := f.good
  have hth := g.th_lt
  have hfh := g.fh_lt
  have hdpos := f.d
  have hidx : idx < 256 ^ p.index_bytes := by have := g.idx_fits; omega
  have sh0 := sh.leaves0
  obtain ⟨oa, ha, e⟩ := fastXmssmtSignBodyT_bind (H := H) (p := p) g hH (z := []) (y := extBytes states sigs)
    (sm0 := sm.take p.sig_bytes) (old := (sm.drop p.sig_bytes).take m.length) (post := sm.drop (p.sig_bytes + m.length))
    (m := m) (idx := idx) (toByte_length idx p.index_bytes) hk.skSeed hk.skPrf hk.root
    hk.pubSeed (extBytes_length sh) (by simp; omega) (by simp; omega) sh0
  have e := e (fun s' h' => (mtTraverse_len g hH sh0.len ha.h3 h').bytes)
  rw [← split3] at e
  simp only [List.append_nil] at e
  have hds := deserialize_eq sh (skHead (Rfc.toByte idx p.index_bytes) k.skSeed k.skPrf k.root k.pubSeed) []
    (skHead_length (toByte_length _ _) hk.skSeed hk.skPrf hk.root hk.pubSeed)
  rw [List.append_nil] at hds
  obtain ⟨r1, -⟩ := skPhase (p := p) (extBytes states sigs) (toByte_length idx p.index_bytes) hk.skSeed hk.skPrf hk.root hk.pubSeed 0
  refine ⟨oa, ?_, ha.h3, ?_, ?_⟩
  rotate_left
  · rw [Key.fast, fastXmssmtSignT, if_neg (by omega), hds]
    trs [r1, bytesToUll_eq (show (Rfc.toByte idx p.index_bytes).length ≤ 8 by rw [toByte_length]; exact g.idx_le), toNat_toByte, Nat.mod_eq_of_lt hidx]
    rw [if_neg (by omega), if_neg (by omega)]
    exact e
  · intro s'
    exact ⟨rfl, rfl, rfl⟩

theorem mtLoopT_last {skSeed pubSeed : Bytes} (g : p.Good) : ∀ (k i : Nat) (v : MtLocals), i + k ≤ p.d →
    mtLoopT H p skSeed pubSeed (2 ^ p.full_height - 1) k i v = (mk v [] : Tr MtLocals)
  | 0, _, _, _ => rfl
  | k + 1, i, v, h => by
    have hpos : 0 < 2 ^ p.full_height := Nat.two_pow_pos _
    have hB : Sched.B p.tree_height (i + 1) ∣ 2 ^ p.full_height - 1 + 1 := by
      rw [show 2 ^ p.full_height - 1 + 1 = 2 ^ p.full_height by omega, ← g.height]
      exact Sched.B_dvd (by omega)
    rw [mtLoopT, mtStepT, if_neg (not_not.mpr ((mask_dvd _ _ _).mpr hB)), if_neg (by omega)]
    trsimp
    exact mtLoopT_last g k (i + 1) v (by omega)

theorem mtTraverseT_last {skSeed pubSeed : Bytes} (g : p.Good) (states : List BdsState) (sigs : List Bytes) (oa : Addr) :
    ∃ v, mtTraverseT H p skSeed pubSeed (2 ^ p.full_height - 1) states sigs oa = mk v [] ∧ v.states = states := by
  have hpos : 0 < 2 ^ p.full_height := Nat.two_pow_pos _
  have hd := g.d_pos
  have e : ¬ ((1 + (2 ^ p.full_height - 1) >>> p.tree_height) * (1 <<< p.tree_height) +
      ((2 ^ p.full_height - 1) &&& ((1 <<< p.tree_height) - 1)) < 2 ^ p.full_height) := by
    rw [Nat.shiftRight_eq_div_pow, Nat.one_shiftLeft, Nat.and_two_pow_sub_one_eq_mod]
    have h1 := Nat.div_add_mod (2 ^ p.full_height - 1) (2 ^ p.tree_height)
    rw [Nat.add_mul, one_mul]
    rw [mul_comm] at h1
    have : 0 < 2 ^ p.tree_height := Nat.two_pow_pos _
    omega
  rw [mtTraverseT, if_neg e]
  trsimp
  rw [mtLoopT_last g _ _ _ (by omega)]
  exact ⟨_, rfl, rfl⟩

theorem fastXmssmtSignT_last (f : FastMt p) (hH : ∀ x, (H x).length = p.n) {k : Key} (hk : k.Valid p) {states : List BdsState}
    {sigs : List Bytes} (sh : ExtShape p states sigs) (sm : Bytes) (l0 : Nat) (m : Bytes) (hsm : p.sig_bytes + m.length ≤ sm.length) :
    ∃ o : FastOut, fastXmssmtSignT H p (k.fast p (2 ^ p.full_height - 1) states sigs) sm l0 m =
      mk o (headCalls p H (Key.zero p) (2 ^ p.full_height - 1) m) ∧ o.ret = 0 ∧ o.leaves = 0 := by
  have g := f.good
  have hth := g.th_lt
  have hfh := g.fh_lt
  have hpos : 0 < 2 ^ p.full_height := Nat.two_pow_pos _
  obtain ⟨idx, hidx⟩ : ∃ idx, idx = 2 ^ p.full_height - 1 := ⟨_, rfl⟩
  have hlt : idx < 256 ^ p.index_bytes := by have := g.idx_fits; omega
  have hz : (Key.zero p).Valid p := zero_valid
  have shw := sh.wipe
  obtain ⟨oa, ha, e⟩ := fastXmssmtSignBodyT_bind (H := H) (p := p) g hH (z := [])
    (y := List.replicate ((2 * p.d - 1) * bdsStateBytes p + (p.d - 1) * p.wots_sig_bytes) 0)
    (ib := List.replicate p.index_bytes 0xFF)
    (sm0 := sm.take p.sig_bytes) (old := (sm.drop p.sig_bytes).take m.length) (post := sm.drop (p.sig_bytes + m.length))
    (m := m) (idx := idx) (by simp) hz.skSeed hz.skPrf hz.root
    hz.pubSeed (by simp) (by simp; omega) (by simp; omega) shw
  have e := e (fun s' h' => (mtTraverse_len g hH shw.len ha.h3 h').bytes)
  rw [← split3] at e
  simp only [List.append_nil] at e
  have hds := deserialize_eq sh (skHead (Rfc.toByte idx p.index_bytes) k.skSeed k.skPrf k.root k.pubSeed) []
    (skHead_length (toByte_length _ _) hk.skSeed hk.skPrf hk.root hk.pubSeed)
  rw [List.append_nil] at hds
  obtain ⟨r1, -⟩ := skPhase (p := p) (extBytes states sigs) (toByte_length idx p.index_bytes) hk.skSeed hk.skPrf hk.root hk.pubSeed 0
  have hw : wipeKey p (skHead (Rfc.toByte idx p.index_bytes) k.skSeed k.skPrf k.root k.pubSeed ++ extBytes states sigs) =
      some (skHead (List.replicate p.index_bytes 0xFF) (Key.zero p).skSeed (Key.zero p).skPrf (Key.zero p).root (Key.zero p).pubSeed ++
      List.replicate ((2 * p.d - 1) * bdsStateBytes p + (p.d - 1) * p.wots_sig_bytes) 0) := by
    rw [← wipe_head]
    simp only [skHead, List.append_assoc]
    apply wipeKey_eq _ _ (toByte_length _ _) (l := 4 * p.n + ((2 * p.d - 1) * bdsStateBytes p + (p.d - 1) * p.wots_sig_bytes))
    · simp only [List.length_append, hk.skSeed, hk.skPrf, hk.root, hk.pubSeed, extBytes_length sh]; omega
    · rw [f.sk, fastSkBytes]; omega
  obtain ⟨v, hv, hvs⟩ := mtTraverseT_last (H := H) (skSeed := (Key.zero p).skSeed) (pubSeed := (Key.zero p).pubSeed) g
    ((states.map fun s => { s with leaves := 0 }).map BdsState.wipe) (sigs.map fun x => List.replicate x.length 0) oa
  rw [← hidx] at hv ⊢
  rw [hv] at e
  refine ⟨?_, ?_, ?_⟩
  rotate_left
  · rw [Key.fast, fastXmssmtSignT, if_neg (by omega), hds]
    trs [r1, bytesToUll_eq (show (Rfc.toByte idx p.index_bytes).length ≤ 8 by rw [toByte_length]; exact g.idx_le), toNat_toByte, Nat.mod_eq_of_lt hlt]
    rw [if_neg (by omega), if_pos (by omega), hw]
    trsimp
    rw [if_neg (by omega), e]
    trsimp
    rfl
  · exact ⟨rfl, by rw [← totalLeaves_wipe states, ← hvs]⟩

theorem fastXmssmtSignT_over (f : FastMt p) {ib body : Bytes} (hib : ib.length = p.index_bytes)
    (hb : p.index_bytes + body.length = p.sk_bytes) (hi : 2 ^ p.full_height ≤ Rfc.toNat ib) (sm : Bytes) (l0 : Nat) (m : Bytes) :
    ∃ o : FastOut, fastXmssmtSignT H p (ib ++ body) sm l0 m = (mk o [] : Tr FastOut) ∧ o.ret = -2 ∧ o.leaves = 0 := by
  have g := f.good
  have hth := g.th_lt
  have hfh := g.fh_lt
  have hpos : 0 < 2 ^ p.full_height := Nat.two_pow_pos _
  obtain ⟨states, sigs, e, sh, _, _⟩ := deserialize_any (p := p) (ib ++ body)
    (by rw [List.length_append, hib, hb, f.sk])
  refine ⟨?_, ?_, ?_⟩
  rotate_left
  · rw [fastXmssmtSignT, if_neg (by omega), e]
    have r1 : rd (ib ++ body) 0 p.index_bytes = some ib := rd_mid [] body (by simp) rfl (by rw [hib])
    trs [r1, bytesToUll_eq (show ib.length ≤ 8 by rw [hib]; exact g.idx_le)]
    rw [if_neg (by omega), if_pos (by omega), wipeKey_eq ib body hib rfl hb.symm]
    trsimp
    rw [if_pos (by omega)]
  · exact ⟨rfl, rfl⟩

end Xmss
