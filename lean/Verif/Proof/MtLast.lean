import Verif.Proof.MtKeygen
/-
Multi-tree fast implementation: the call with the last index, and the calls behind it.
-/
namespace Xmss
open Sched

variable {H : Bytes → Bytes} {p : Params}

theorem mtLoop_last {skSeed pubSeed : Bytes} (g : p.Good) : ∀ (k i : Nat) (v : MtLocals), i + k ≤ p.d →
    mtLoop H p skSeed pubSeed (2 ^ p.full_height - 1) k i v = some v := by
  have hpos : 0 < 2 ^ p.full_height := Nat.two_pow_pos _
  intro k
  induction k with
  | zero => intro i v _; rfl
  | succ k ih =>
    intro i v hk
    have hB : B p.tree_height (i + 1) ∣ 2 ^ p.full_height - 1 + 1 := by
      rw [show 2 ^ p.full_height - 1 + 1 = 2 ^ p.full_height by omega, ← g.height]
      exact B_dvd (by omega)
    rw [mtLoop, mtStep, if_neg (not_not.mpr ((mask_dvd _ _ _).mpr hB)), if_neg (by omega)]
    exact ih (i + 1) v (by omega)

/-- The last signature changes no state. -/
theorem mtTraverse_last {skSeed pubSeed : Bytes} (g : p.Good) (states : List BdsState) (sigs : List Bytes) (oa : Addr) :
    ∃ v, mtTraverse H p skSeed pubSeed (2 ^ p.full_height - 1) states sigs oa = some v ∧ v.states = states ∧ v.sigs = sigs := by
  have hpos : 0 < 2 ^ p.full_height := Nat.two_pow_pos _
  have hd := g.d_pos
  have e : ¬ ((1 + (2 ^ p.full_height - 1) >>> p.tree_height) * (1 <<< p.tree_height) +
      ((2 ^ p.full_height - 1) &&& ((1 <<< p.tree_height) - 1)) < 2 ^ p.full_height) := by
    rw [Nat.shiftRight_eq_div_pow, Nat.one_shiftLeft, Nat.and_two_pow_sub_one_eq_mod]
    have h1 := Nat.div_add_mod (2 ^ p.full_height - 1) (2 ^ p.tree_height)
    rw [Nat.add_mul, one_mul]
    rw [mul_comm] at h1
    have : 0 < 2 ^ p.tree_height := Nat.two_pow_pos _
    omega
  rw [mtTraverse, if_neg e]
  simp only [Option.bind_eq_bind, Option.bind_some]
  rw [mtLoop_last g _ _ _ (by omega)]
  exact ⟨_, rfl, rfl, rfl⟩

theorem ExtShape.wipe {states : List BdsState} {sigs : List Bytes} (sh : ExtShape p states sigs) :
    ExtShape p ((states.map fun s => { s with leaves := 0 }).map BdsState.wipe) (sigs.map fun x => List.replicate x.length 0) := by
  refine ⟨by simp [sh.states_len], ?_, by simp [sh.sigs_len], ?_⟩
  · intro s hs
    obtain ⟨t, ht, rfl⟩ := List.mem_map.mp hs
    obtain ⟨t', ht', rfl⟩ := List.mem_map.mp ht
    exact ((sh.states_mem t' ht').with_leaves 0).wipe
  · intro x hx
    obtain ⟨y, hy, rfl⟩ := List.mem_map.mp hx
    rw [List.length_replicate]; exact sh.sigs_mem y hy

theorem totalLeaves_wipe (states : List BdsState) :
    totalLeaves ((states.map fun s => { s with leaves := 0 }).map BdsState.wipe) = 0 := by
  unfold totalLeaves
  induction states with
  | nil => rfl
  | cons s l ih => simpa [BdsState.wipe] using ih

theorem wipe_auth_zero (s : BdsState) : ∀ b ∈ s.wipe.auth.flatten, b = 0 := by
  intro b hb
  simp only [BdsState.wipe, List.mem_flatten, List.mem_map] at hb
  obtain ⟨l, ⟨x, _, rfl⟩, hb⟩ := hb
  exact (List.mem_replicate.mp hb).2

theorem storedLayers_zero {states : List BdsState} {sigs : List Bytes} (h1 : ∀ s ∈ states, ∀ b ∈ s.auth.flatten, b = 0)
    (h2 : ∀ x ∈ sigs, ∀ b ∈ x, b = 0) : ∀ k i, i + k ≤ states.length → ∀ b ∈ storedLayers states sigs k i, b = 0 := by
  intro k
  induction k with
  | zero => intro i _ b hb; simp [storedLayers] at hb
  | succ k ih =>
    intro i hi b hb
    rw [storedLayers, List.mem_append, List.mem_append] at hb
    rcases hb with (hb | hb) | hb
    · by_cases hl : i - 1 < sigs.length
      · rw [List.getD_eq_getElem?_getD, List.getElem?_eq_getElem hl] at hb
        exact h2 _ (List.getElem_mem hl) b hb
      · rw [List.getD_eq_getElem?_getD, List.getElem?_eq_none (by omega)] at hb
        simp at hb
    · rw [List.getD_eq_getElem?_getD, List.getElem?_eq_getElem (by omega)] at hb
      exact h1 _ (List.getElem_mem _) b hb
    · exact ih (i + 1) (by omega) b hb

/-- The call with the last index. -/
theorem fastXmssmtSign_last (f : FastMt p) (hH : ∀ x, (H x).length = p.n) {k : Key} (hk : k.Valid p) {states : List BdsState}
    {sigs : List Bytes} (sh : ExtShape p states sigs) (sm : Bytes) (l0 : Nat) (m : Bytes) (hsm : p.sig_bytes + m.length ≤ sm.length) :
    ∃ states' sigs' sm', ExtShape p states' sigs' ∧ sm' = fastLastSig p H m ++ m ++ sm.drop (p.sig_bytes + m.length) ∧
      fastXmssmtSign H p (k.fast p (2 ^ p.full_height - 1) states sigs) sm l0 m = some
        { ret := 0
          sk := (Key.zero p).fast p (2 ^ p.full_height) states' sigs'
          sm := sm'
          smlen := p.sig_bytes + m.length
          leaves := 0 } := by
  have g := f.good
  have hth := g.th_lt
  have hfh := g.fh_lt
  have hpos : 0 < 2 ^ p.full_height := Nat.two_pow_pos _
  have hd2 := f.d
  obtain ⟨idx, hidx⟩ : ∃ idx, idx = 2 ^ p.full_height - 1 := ⟨_, rfl⟩
  have e1 : 2 ^ p.full_height = idx + 1 := by omega
  have hlt : idx < 256 ^ p.index_bytes := by have := g.idx_fits; omega
  have hz : (Key.zero p).Valid p := ⟨by simp [Key.zero], by simp [Key.zero], by simp [Key.zero], by simp [Key.zero]⟩
  have shw := sh.wipe
  obtain ⟨v, ⟨hv1, hv2⟩, e⟩ := fastXmssmtSignBody_eq (H := H) (p := p) g hH (z := [])
    (y := List.replicate ((2 * p.d - 1) * bdsStateBytes p + (p.d - 1) * p.wots_sig_bytes) 0)
    (ib := List.replicate p.index_bytes 0xFF)
    (sm0 := sm.take p.sig_bytes) (old := (sm.drop p.sig_bytes).take m.length) (post := sm.drop (p.sig_bytes + m.length))
    (m := m) (idx := idx) (by simp) hz.skSeed hz.skPrf hz.root
    hz.pubSeed (by simp) (by simp; omega) (by simp; omega) shw
    (fun v => v.states = ((states.map fun s => { s with leaves := 0 }).map BdsState.wipe) ∧ v.sigs = sigs.map fun x => List.replicate x.length 0)
    (fun v h => by rw [h.1, h.2]; exact shw)
    (by
      intro oa _
      rw [hidx]
      exact mtTraverse_last g _ _ _)
  rw [← split3] at e
  simp only [List.append_nil] at e
  rw [hv1, hv2, totalLeaves_wipe] at e
  have hsl := storedLayers_length shw (p.d - 1) 1 (Nat.le_refl _) (by omega)
  have hst0 : 0 < ((states.map fun s => { s with leaves := 0 }).map BdsState.wipe).length := by have := shw.states_len; omega
  have hal : (((states.map fun s => { s with leaves := 0 }).map BdsState.wipe).getD 0 default).auth.flatten.length = p.tree_height * p.n := by
    rw [List.getD_eq_getElem?_getD, List.getElem?_eq_getElem hst0]
    exact (shw.states_mem _ (List.getElem_mem hst0)).auth_flat
  have hds := deserialize_eq sh (skHead (Rfc.toByte idx p.index_bytes) k.skSeed k.skPrf k.root k.pubSeed) []
    (skHead_length (toByte_length _ _) hk.skSeed hk.skPrf hk.root hk.pubSeed)
  rw [List.append_nil] at hds
  obtain ⟨r1, -⟩ := skPhase (p := p) (extBytes states sigs) (toByte_length idx p.index_bytes) hk.skSeed hk.skPrf hk.root hk.pubSeed 0
  have hw : wipeKey p (skHead (Rfc.toByte idx p.index_bytes) k.skSeed k.skPrf k.root k.pubSeed ++ extBytes states sigs) =
      some (skHead (List.replicate p.index_bytes 0xFF) (Key.zero p).skSeed (Key.zero p).skPrf (Key.zero p).root (Key.zero p).pubSeed ++
      List.replicate ((2 * p.d - 1) * bdsStateBytes p + (p.d - 1) * p.wots_sig_bytes) 0) := by
    rw [← wipe_head]
    simp only [skHead, List.append_assoc]
    apply wipeKey_eq _ _ (toByte_length _ _) (l := 4 * p.n + ((2 * p.d - 1) * bdsStateBytes p + (p.d - 1) * p.wots_sig_bytes))
    · simp only [List.length_append, hk.skSeed, hk.skPrf, hk.root, hk.pubSeed, extBytes_length sh]; omega
    · rw [f.sk, fastSkBytes]; omega
  have e' : ∃ sm' : Bytes, sm' = fastLastSig p H m ++ m ++ sm.drop (p.sig_bytes + m.length) ∧
      fastXmssmtSignBody H p (skHead (List.replicate p.index_bytes 0xFF) (Key.zero p).skSeed (Key.zero p).skPrf (Key.zero p).root
          (Key.zero p).pubSeed ++ List.replicate ((2 * p.d - 1) * bdsStateBytes p + (p.d - 1) * p.wots_sig_bytes) 0) sm m
        ((states.map fun s => { s with leaves := 0 }).map BdsState.wipe) (sigs.map fun x => List.replicate x.length 0) idx =
      some { ret := 0
             sk := (Key.zero p).fast p (idx + 1) ((states.map fun s => { s with leaves := 0 }).map BdsState.wipe)
               (sigs.map fun x => List.replicate x.length 0)
             sm := sm'
             smlen := p.sig_bytes + m.length
             leaves := 0 } := by
    refine ⟨_, ?_, e⟩
    have hz1 : ∀ s ∈ ((states.map fun s => { s with leaves := 0 }).map BdsState.wipe), ∀ b ∈ s.auth.flatten, b = 0 := by
      intro s hs
      obtain ⟨t, _, rfl⟩ := List.mem_map.mp hs
      exact wipe_auth_zero t
    have hz2 : ∀ x ∈ (sigs.map fun x => List.replicate x.length (0 : UInt8)), ∀ b ∈ x, b = 0 := by
      intro x hx b hb
      obtain ⟨t, _, rfl⟩ := List.mem_map.mp hx
      exact (List.mem_replicate.mp hb).2
    have a1 : (((states.map fun s => { s with leaves := 0 }).map BdsState.wipe).getD 0 default).auth.flatten =
        List.replicate (p.tree_height * p.n) 0 := by
      rw [List.eq_replicate_iff]
      refine ⟨hal, ?_⟩
      rw [List.getD_eq_getElem?_getD, List.getElem?_eq_getElem hst0]
      exact hz1 _ (List.getElem_mem _)
    have a2 : storedLayers ((states.map fun s => { s with leaves := 0 }).map BdsState.wipe)
        (sigs.map fun x => List.replicate x.length 0) (p.d - 1) 1 =
        List.replicate ((p.d - 1) * (p.wots_sig_bytes + p.tree_height * p.n)) 0 := by
      rw [List.eq_replicate_iff]
      exact ⟨hsl, storedLayers_zero hz1 hz2 _ _ (by have := shw.states_len; omega)⟩
    rw [a1, a2, fastLastSig, List.replicate_add, ← hidx]
    simp only [List.append_assoc]
  obtain ⟨sm', hsm', e2⟩ := e'
  refine ⟨_, _, sm', shw, hsm', ?_⟩
  rw [← hidx, e1, Key.fast, fastXmssmtSign, if_neg (by omega), hds]
  simp only [Option.bind_eq_bind, Option.bind_some, r1]
  rw [bytesToUll_eq (by rw [toByte_length]; exact g.idx_le), toNat_toByte, Nat.mod_eq_of_lt hlt]
  simp only [Option.bind_some]
  rw [if_neg (by omega), if_pos (by omega), hw]
  simp only [Option.bind_some]
  rw [if_neg (by omega), e2]

/-- Every call with an index behind the last one. -/
theorem fastXmssmtSign_exhausted (f : FastMt p) {ib body : Bytes} (hib : ib.length = p.index_bytes)
    (hb : p.index_bytes + body.length = p.sk_bytes) (hi : 2 ^ p.full_height ≤ Rfc.toNat ib) (sm : Bytes) (l0 : Nat) (m : Bytes) :
    fastXmssmtSign H p (ib ++ body) sm l0 m = some
        { ret := -2
          sk := List.replicate p.index_bytes 0xFF ++ List.replicate body.length 0
          sm := sm
          smlen := l0
          leaves := 0 } := by
  have g := f.good
  have hth := g.th_lt
  have hfh := g.fh_lt
  have hpos : 0 < 2 ^ p.full_height := Nat.two_pow_pos _
  obtain ⟨states, sigs, e, sh, _, _⟩ := deserialize_any (p := p) (ib ++ body)
    (by rw [List.length_append, hib, hb, f.sk])
  rw [fastXmssmtSign, if_neg (by omega), e]
  have r1 : rd (ib ++ body) 0 p.index_bytes = some ib := rd_mid [] body (by simp) rfl (by rw [hib])
  simp only [Option.bind_eq_bind, Option.bind_some, r1]
  rw [bytesToUll_eq (by rw [hib]; exact g.idx_le)]
  simp only [Option.bind_some]
  rw [if_neg (by omega), if_pos (by omega), wipeKey_eq ib body hib rfl hb.symm]
  simp only [Option.bind_some]
  rw [if_pos (by omega)]

end Xmss
