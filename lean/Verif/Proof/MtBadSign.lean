import Verif.Proof.MtBadRun
/-
Multi-tree fast implementation with trees of height five and at least five layers: sign calls from index 2^20 on.
-/
namespace Xmss
open Sched

variable {H : Bytes → Bytes} {p : Params} {x : Option Bytes}

theorem MixInv.with_leaves {skSeed pubSeed : Bytes} {idx : Nat} {states : List BdsState} {sigs : List Bytes}
    (m : MixInv H p skSeed pubSeed x idx states sigs) (n : Nat) :
    MixInv H p skSeed pubSeed x idx (states.map fun s => { s with leaves := n }) sigs := by
  obtain ⟨A, c, m⟩ := m
  refine ⟨A, c, by rw [List.length_map]; exact m.states_len, m.sigs_len, ?_, m.plan⟩
  intro k hk
  obtain ⟨cur, h1, h2⟩ := m.layer k hk
  refine ⟨{ cur with leaves := n }, by rw [List.getElem?_map, h1]; rfl, ?_⟩
  rw [List.getElem?_map]
  unfold MixQ at h2 ⊢
  split
  · rename_i hc
    rw [if_pos hc] at h2
    obtain ⟨⟨a1, a2, a3, a4, a5⟩, h2⟩ := h2
    refine ⟨⟨a1.with_leaves n, a2, a3, a4, a5⟩, fun hi => ?_⟩
    obtain ⟨nx, e, h3, h4, h5, h7, h6⟩ := h2 hi
    rw [e]
    exact ⟨_, rfl, h3, h4, h5.with_leaves n, h7, h6⟩
  · rename_i hc
    rw [if_neg hc] at h2
    exact h2.with_leaves n

/-- The sizes are right. -/
theorem MixInv.ext (g : p.Good) (hH : ∀ x, (H x).length = p.n) {skSeed pubSeed : Bytes} {idx : Nat} {states : List BdsState} {sigs : List Bytes}
    (m : MixInv H p skSeed pubSeed x idx states sigs) : ExtShape p states sigs := by
  obtain ⟨A, c, m⟩ := m
  have hl := m.states_len
  have hs := m.sigs_len
  have hq : ∀ k < p.d, ∃ cur, states[k]? = some cur ∧ Shape p cur ∧
      (k + 1 < p.d → ∃ nx, states[p.d + k]? = some nx ∧ Shape p nx ∧ ∃ s, sigs[k]? = some s ∧ s.length = p.wots_sig_bytes) := by
    intro k hk
    obtain ⟨cur, h1, h2⟩ := m.layer k hk
    refine ⟨cur, h1, ?_⟩
    unfold MixQ at h2
    split at h2
    · obtain ⟨⟨a1, _⟩, h2⟩ := h2
      refine ⟨a1, fun h => ?_⟩
      obtain ⟨nx, e, _, _, h5, _, s, h6⟩ := h2 h
      exact ⟨nx, e, h5.shape, s, h6⟩
    · obtain ⟨⟨_, _, ti⟩, h2⟩ := h2
      refine ⟨ti.work.shape, fun h => ?_⟩
      obtain ⟨nx, e, _, _, h5, _, h6⟩ := h2 h
      exact ⟨nx, e, h5.shape, _, h6, by rw [wotsSig_flat_length g hH, g.sig_wots]⟩
  refine ⟨hl, ?_, hs, ?_⟩
  · intro s hmem
    obtain ⟨k, hk, rfl⟩ := List.mem_iff_getElem.mp hmem
    rcases Nat.lt_or_ge k p.d with h | h
    · obtain ⟨cur, h1, h2, _⟩ := hq k h
      rw [List.getElem?_eq_getElem hk, Option.some.injEq] at h1
      rw [h1]; exact h2
    · obtain ⟨cur, _, _, h2⟩ := hq (k - p.d) (by omega)
      obtain ⟨nx, h3, h4, _⟩ := h2 (by omega)
      rw [show p.d + (k - p.d) = k by omega, List.getElem?_eq_getElem hk, Option.some.injEq] at h3
      rw [h3]; exact h4
  · intro y hmem
    obtain ⟨k, hk, rfl⟩ := List.mem_iff_getElem.mp hmem
    obtain ⟨cur, _, _, h2⟩ := hq k (by omega)
    obtain ⟨_, _, _, s, h6, h7⟩ := h2 (by omega)
    rw [List.getElem?_eq_getElem hk, Option.some.injEq] at h6
    rw [h6]; exact h7

/-- If the traversal is undefined, so is the call. -/
theorem fastXmssmtSignBody_none (g : p.Good) (hH : ∀ x, (H x).length = p.n) {sk sm m : Bytes} {states : List BdsState} {sigs : List Bytes} {idx : Nat}
    {skSeed pubSeed : Bytes} (h1 : rd sk p.index_bytes p.n = some skSeed) (h2 : rd sk (p.index_bytes + 3 * p.n) p.n = some pubSeed)
    (hs : ∀ oa : Addr, oa.a3 = UInt32.ofNat 0 → mtTraverse H p skSeed pubSeed idx states sigs oa = none) :
    fastXmssmtSignBody H p sk sm m states sigs idx = none := by
  by_contra hne
  obtain ⟨o, ho⟩ := Option.ne_none_iff_exists'.mp hne
  rw [fastXmssmtSignBody] at ho
  obtain ⟨_, g1, ho⟩ := Option.bind_eq_some_iff.mp ho
  rw [h1] at g1
  cases g1
  obtain ⟨_, -, ho⟩ := Option.bind_eq_some_iff.mp ho
  obtain ⟨_, g2, ho⟩ := Option.bind_eq_some_iff.mp ho
  rw [h2] at g2
  cases g2
  obtain ⟨_, -, ho⟩ := Option.bind_eq_some_iff.mp ho
  obtain ⟨_, -, ho⟩ := Option.bind_eq_some_iff.mp ho
  obtain ⟨_, -, ho⟩ := Option.bind_eq_some_iff.mp ho
  split at ho
  · cases ho
  obtain ⟨hm, e, ho⟩ := Option.bind_eq_some_iff.mp ho
  have hMl : hm.1.length = p.n := by
    rw [hashMessage] at e
    simp only [Option.bind_eq_bind] at e
    obtain ⟨_, -, e⟩ := Option.bind_eq_some_iff.mp e
    obtain ⟨_, -, e⟩ := Option.bind_eq_some_iff.mp e
    obtain ⟨_, -, e⟩ := Option.bind_eq_some_iff.mp e
    obtain ⟨_, -, e⟩ := Option.bind_eq_some_iff.mp e
    obtain ⟨_, -, e⟩ := Option.bind_eq_some_iff.mp e
    cases e
    exact hH _
  obtain ⟨_, -, ho⟩ := Option.bind_eq_some_iff.mp ho
  obtain ⟨_, -, ho⟩ := Option.bind_eq_some_iff.mp ho
  obtain ⟨_, -, ho⟩ := Option.bind_eq_some_iff.mp ho
  obtain ⟨_, -, ho⟩ := Option.bind_eq_some_iff.mp ho
  obtain ⟨_, -, ho⟩ := Option.bind_eq_some_iff.mp ho
  obtain ⟨_, -, ho⟩ := Option.bind_eq_some_iff.mp ho
  obtain ⟨st, e1, ho⟩ := Option.bind_eq_some_iff.mp ho
  obtain ⟨v, e2, ho⟩ := Option.bind_eq_some_iff.mp ho
  obtain ⟨w1, w2⟩ := wotsSign_eq (H := H) g (layer := 0) (tree := idx >>> p.tree_height) (ots := idx &&& ((1 <<< p.tree_height) - 1))
      skSeed pubSeed hMl
      (setOtsAddr (setTreeAddr (setLayerAddr (setType Addr.zero typeOts) 0) (idx >>> p.tree_height)) (idx &&& ((1 <<< p.tree_height) - 1)))
      ⟨rfl, rfl, rfl, rfl, rfl⟩
  have := hs _ w2.h3
  rw [mtTraverse] at this
  simp only [Option.bind_eq_bind] at this e1
  rw [e1] at this
  simp only [Option.bind_some] at this
  rw [e2] at this
  cases this

theorem fastXmssmtSign_none (g : p.Good) (hH : ∀ x, (H x).length = p.n) {k : Key} (hk : k.Valid p) {idx : Nat}
    (hi : idx < 2 ^ p.full_height - 1) {states : List BdsState} {sigs : List Bytes} (sh : ExtShape p states sigs)
    (sm : Bytes) (l0 : Nat) (msg : Bytes)
    (hs : ∀ oa : Addr, oa.a3 = UInt32.ofNat 0 →
      mtTraverse H p k.skSeed k.pubSeed idx (states.map fun s => { s with leaves := 0 }) sigs oa = none) :
    fastXmssmtSign H p (k.fast p idx states sigs) sm l0 msg = none := by
  have hth := g.th_lt
  have hfh := g.fh_lt
  have hidx : idx < 256 ^ p.index_bytes := by have := g.idx_fits; omega
  have hib8 : p.index_bytes ≤ 8 := g.idx_le
  rw [Key.fast, fastXmssmtSign, if_neg (by omega)]
  have hds := deserialize_eq sh (skHead (Rfc.toByte idx p.index_bytes) k.skSeed k.skPrf k.root k.pubSeed) []
    (skHead_length (toByte_length _ _) hk.skSeed hk.skPrf hk.root hk.pubSeed)
  rw [List.append_nil] at hds
  obtain ⟨r1, r2, -, -, r5, -⟩ := skPhase (p := p) (extBytes states sigs) (toByte_length idx p.index_bytes) hk.skSeed hk.skPrf hk.root hk.pubSeed 0
  rw [hds]
  simp only [Option.bind_eq_bind, Option.bind_some, r1]
  rw [bytesToUll_eq (by rw [toByte_length]; exact hib8), toNat_toByte, Nat.mod_eq_of_lt hidx]
  simp only [Option.bind_some]
  rw [if_neg (by omega), if_neg (by omega)]
  exact fastXmssmtSignBody_none g hH r2 r5 hs

/-- Offset in the signature of the last node of the authentication path of layer 3. -/
def badOff (p : Params) : Nat := p.index_bytes + p.n + 4 * (p.wots_sig_bytes + p.tree_height * p.n) - p.n

/-- One call. -/
theorem fastXmssmtSign_mix (f : FastMt p) (ht : p.tree_height = 5) (h5 : 5 ≤ p.d) (hd100 : p.d ≤ 100) (hH : ∀ x, (H x).length = p.n)
    {k : Key} (hk : k.Valid p) {idx : Nat} (hidx : idx + 1 < 2 ^ 20 + 2 ^ 18) {states : List BdsState}
    {sigs : List Bytes} (mi : MixInv H p k.skSeed k.pubSeed x idx states sigs) (sm : Bytes) (l0 : Nat) (m : Bytes)
    (hsm : p.sig_bytes + m.length ≤ sm.length) :
    ∃ states' sigs' n sm', MixInv H p k.skSeed k.pubSeed x (idx + 1) states' sigs' ∧
      fastXmssmtSign H p (k.fast p idx states sigs) sm l0 m = some
        { ret := 0, sk := k.fast p (idx + 1) states' sigs', sm := sm', smlen := p.sig_bytes + m.length, leaves := n } ∧
      (idx = 2 ^ 20 → ∀ y, x = some y → (sm'.drop (badOff p)).take p.n = y) := by
  have g := f.good
  have hi : idx < 2 ^ p.full_height - 1 := by
    have h1 : 25 ≤ p.full_height := by rw [← g.height, ht]; omega
    have h2 : 2 ^ 25 ≤ 2 ^ p.full_height := Nat.pow_le_pow_right (by omega) h1
    omega
  have sh := mi.ext g hH
  obtain ⟨v, hv, e⟩ := fastXmssmtSign_lt g hH hk hi sh sm l0 m hsm
    (fun v => MixInv H p k.skSeed k.pubSeed x (idx + 1) v.states v.sigs) (fun v h => h.ext g hH)
    (fun oa ho => mtTraverse_mix f ht h5 hd100 hH hidx (mi.with_leaves 0) ho)
  refine ⟨v.states, v.sigs, _, _, hv, e, ?_⟩
  intro hi20 y hy
  obtain ⟨A, c, mi⟩ := mi
  obtain ⟨cur, hcur, hq⟩ := mi.layer 3 (by omega)
  rw [MixQ, if_pos ⟨rfl, by omega⟩] at hq
  obtain ⟨⟨shc, _, _, _, hx⟩, _⟩ := hq
  have hau := hx hi20 y hy
  have hal := shc.auth_len
  rw [ht] at hal
  have hylen : y.length = p.n := shc.auth_mem y (List.mem_of_getElem? hau)
  obtain ⟨a0, a1, a2, a3, a4, hcl⟩ : ∃ a0 a1 a2 a3 a4, cur.auth = [a0, a1, a2, a3, a4] := by
    match cur.auth, hal with
    | [a0, a1, a2, a3, a4], _ => exact ⟨a0, a1, a2, a3, a4, rfl⟩
  rw [hcl] at hau
  simp only [List.getElem?_cons_succ, List.getElem?_cons_zero, Option.some.injEq] at hau
  subst hau
  have hmem := shc.auth_mem
  rw [hcl] at hmem
  have l0 := hmem a0 (by simp)
  have l1 := hmem a1 (by simp)
  have l2 := hmem a2 (by simp)
  have l3 := hmem a3 (by simp)
  obtain ⟨k', hk'⟩ : ∃ k', p.d - 1 = k' + 1 + 1 + 1 := ⟨p.d - 4, by omega⟩
  have es : storedLayers states sigs (p.d - 1) 1 = storedLayers states sigs 2 1 ++ (sigs.getD 2 [] ++ (a0 ++ a1 ++ a2 ++ a3) ++
      (a4 ++ storedLayers states sigs k' 4)) := by
    rw [hk', storedLayers, storedLayers, storedLayers, storedLayers, storedLayers, storedLayers, List.getD_eq_getElem?_getD (l := states) (i := 3), hcur]
    simp [hcl]
  have hl2 := storedLayers_length sh 2 1 (by omega) (by omega)
  have hs2 : (sigs.getD 2 []).length = p.wots_sig_bytes := by
    have hsl := sh.sigs_len
    rw [List.getD_eq_getElem?_getD, List.getElem?_eq_getElem (show 2 < sigs.length by omega)]
    exact sh.sigs_mem _ (List.getElem_mem _)
  have hst0 : 0 < states.length := by have := sh.states_len; omega
  have hal0 := (sh.states_mem _ (List.getElem_mem hst0)).auth_flat
  have e0 : states.getD 0 default = states[0] := by
    rw [List.getD_eq_getElem?_getD, List.getElem?_eq_getElem hst0]; rfl
  have hR : ((suiteOf p H).PRF k.skPrf (Rfc.toByte idx 32)).length = p.n := hH _
  rw [es, e0]
  set W := ((suiteOf p H).wotsSig k.skSeed k.pubSeed ((suiteOf p H).digest ((suiteOf p H).PRF k.skPrf (Rfc.toByte idx 32)) k.root
                 idx m) 0 (idx / 2 ^ p.tree_height) (idx % 2 ^ p.tree_height)).flatten with hW
  have hWl : W.length = p.wots_sig_bytes := by rw [hW, wotsSig_flat_length g hH, g.sig_wots]
  set R := (suiteOf p H).PRF k.skPrf (Rfc.toByte idx 32) with hRd
  have e' : ∀ (s2 au tl post : Bytes), Rfc.toByte idx p.index_bytes ++ R ++ W ++ states[0].auth.flatten ++ (s2 ++ (sigs.getD 2 [] ++ au ++ (a4 ++ tl))) ++ m ++ post =
      (Rfc.toByte idx p.index_bytes ++ R ++ W ++ states[0].auth.flatten ++ s2 ++ sigs.getD 2 [] ++ au) ++ (a4 ++ (tl ++ m ++ post)) := by
    intro s2 au tl post; simp only [List.append_assoc]
  rw [e', List.drop_left' (by
      simp only [List.length_append, toByte_length, hR, hWl, hal0, hl2, hs2, l0, l1, l2, l3, badOff, ht]
      omega), List.take_left' hylen]

/-- The call with the overflow. -/
theorem fastXmssmtSign_overflow (f : FastMt p) (ht : p.tree_height = 5) (h5 : 5 ≤ p.d) (hd100 : p.d ≤ 100) (hH : ∀ x, (H x).length = p.n)
    {k : Key} (hk : k.Valid p) {idx : Nat} (hidx : idx = 2 ^ 20 + 2 ^ 18 - 1) {states : List BdsState}
    {sigs : List Bytes} (mi : MixInv H p k.skSeed k.pubSeed x idx states sigs) (sm : Bytes) (l0 : Nat) (m : Bytes) :
    fastXmssmtSign H p (k.fast p idx states sigs) sm l0 m = none := by
  have g := f.good
  have hi : idx < 2 ^ p.full_height - 1 := by
    have h1 : 25 ≤ p.full_height := by rw [← g.height, ht]; omega
    have h2 : 2 ^ 25 ≤ 2 ^ p.full_height := Nat.pow_le_pow_right (by omega) h1
    omega
  exact fastXmssmtSign_none g hH hk hi (mi.ext g hH) sm l0 m
    (fun oa ho => mtTraverse_overflow f ht h5 hd100 hH hidx (mi.with_leaves 0) ho)

end Xmss
