import Verif.Proof.MtTraverse
/-
Multi-tree fast implementation: one call of the sign function in terms of RFC 8391.
-/
namespace Xmss
open Sched

variable {H : Bytes → Bytes} {p : Params} {z : Nat → Option Bytes}

theorem BuildInv.with_leaves {N : Nat → Nat → Bytes} {c : Nat} {s : BdsState} (b : BuildInv p N c s) (n : Nat) :
    BuildInv p N c { s with leaves := n } := by
  obtain ⟨L, hr, hs⟩ := b.stack
  exact ⟨b.shape.with_leaves n, ⟨L, ⟨hr.off, hr.stack, hr.levels⟩, hs⟩, fun i r h1 h2 => by
    have := b.stored i r h1 h2
    exact ⟨this.auth, this.inst, this.retain⟩⟩

theorem GoodLayer.with_leaves {skSeed pubSeed : Bytes} {i t : Nat} {A : Nat → Nat} {c : Nat} {cur : BdsState} {next : Option BdsState}
    {sig : Option Bytes} (h : GoodLayer H p skSeed pubSeed z i t A c cur next sig) (n : Nat) :
    GoodLayer H p skSeed pubSeed z i t A c { cur with leaves := n } (next.map fun s => { s with leaves := n }) sig := by
  obtain ⟨⟨base, seg, ti⟩, h2⟩ := h
  refine ⟨⟨base, seg, ti.with_leaves n⟩, fun hi => ?_⟩
  obtain ⟨nx, rfl, h3, h4, h5, h7, h6⟩ := h2 hi
  exact ⟨_, rfl, h3, h4, h5.with_leaves n, h7, h6⟩

theorem MtInv.with_leaves {skSeed pubSeed : Bytes} {idx : Nat} {states : List BdsState} {sigs : List Bytes}
    (m : MtInv H p skSeed pubSeed z idx states sigs) (n : Nat) :
    MtInv H p skSeed pubSeed z idx (states.map fun s => { s with leaves := n }) sigs := by
  obtain ⟨A, c, m⟩ := m
  refine ⟨A, c, by rw [List.length_map]; exact m.states_len, m.sigs_len, ?_, m.plan⟩
  intro k hk
  obtain ⟨cur, h1, h2⟩ := m.layer k hk
  refine ⟨{ cur with leaves := n }, by rw [List.getElem?_map, h1]; rfl, ?_⟩
  rw [List.getElem?_map]
  exact h2.with_leaves n

theorem totalLeaves_zero (states : List BdsState) : totalLeaves (states.map fun s => { s with leaves := 0 }) = 0 := by
  unfold totalLeaves
  induction states with
  | nil => rfl
  | cons s l ih => simpa using ih

/-- Good layers have the right sizes. -/
theorem MtInv.ext (g : p.Good) (hH : ∀ x, (H x).length = p.n) {skSeed pubSeed : Bytes} {idx : Nat} {states : List BdsState} {sigs : List Bytes}
    (m : MtInv H p skSeed pubSeed z idx states sigs) : ExtShape p states sigs := by
  obtain ⟨A, c, m⟩ := m
  have hl := m.states_len
  have hs := m.sigs_len
  refine ⟨hl, ?_, hs, ?_⟩
  · intro s hmem
    obtain ⟨k, hk, rfl⟩ := List.mem_iff_getElem.mp hmem
    rcases Nat.lt_or_ge k p.d with h | h
    · obtain ⟨cur, h1, ⟨⟨_, _, ti⟩, _⟩⟩ := m.layer k h
      rw [List.getElem?_eq_getElem hk, Option.some.injEq] at h1
      rw [h1]; exact ti.work.shape
    · obtain ⟨cur, _, ⟨_, h2⟩⟩ := m.layer (k - p.d) (by omega)
      obtain ⟨nx, h3, _, _, h4, _⟩ := h2 (by omega)
      rw [show p.d + (k - p.d) = k by omega, List.getElem?_eq_getElem hk, Option.some.injEq] at h3
      rw [h3]; exact h4.shape
  · intro x hmem
    obtain ⟨k, hk, rfl⟩ := List.mem_iff_getElem.mp hmem
    obtain ⟨cur, _, ⟨_, h2⟩⟩ := m.layer k (by omega)
    obtain ⟨_, _, _, _, _, _, h6⟩ := h2 (by omega)
    rw [GoodSig, List.getElem?_eq_getElem hk, Option.some.injEq] at h6
    rw [h6, wotsSig_flat_length g hH, g.sig_wots]

/-- The stored signatures and authentication paths are those of RFC 8391. -/
theorem storedLayers_eq (g : p.Good) {skSeed pubSeed : Bytes} {idx : Nat} {states : List BdsState} {sigs : List Bytes}
    (m : MtInv H p skSeed pubSeed z idx states sigs) : ∀ k i, i + 1 + k = p.d →
    (states.getD i default).auth.flatten ++ storedLayers states sigs k (i + 1) =
      ((suiteOf p H).authPath skSeed pubSeed i (idx / B p.tree_height (i + 1)) (leafAt p.tree_height idx i)).flatten ++
      (suiteOf p H).signLayers skSeed pubSeed k (i + 1) (idx / B p.tree_height (i + 1))
        ((suiteOf p H).treeRoot skSeed pubSeed i (idx / B p.tree_height (i + 1))) := by
  obtain ⟨A, c, m⟩ := m
  intro k
  induction k with
  | zero =>
    intro i hi
    obtain ⟨cur, h1, ⟨⟨_, _, ti⟩, _⟩⟩ := m.layer i (by omega)
    rw [List.getD_eq_getElem?_getD, h1]
    show cur.auth.flatten ++ [] = _ ++ []
    rw [auth_eq_authPath g ti.work.shape ti.auth]
  | succ k ih =>
    intro i hi
    obtain ⟨cur, h1, ⟨⟨_, _, ti⟩, h2⟩⟩ := m.layer i (by omega)
    obtain ⟨_, _, _, _, _, _, h6⟩ := h2 (by omega)
    rw [GoodSig] at h6
    have e1 : states.getD i default = cur := by rw [List.getD_eq_getElem?_getD, h1]; rfl
    rw [e1, auth_eq_authPath g ti.work.shape ti.auth, storedLayers, Nat.add_sub_cancel,
      List.getD_eq_getElem?_getD (l := sigs), h6]
    simp only [Option.getD_some]
    rw [List.append_assoc _ (states.getD (i + 1) default).auth.flatten, ih (i + 1) (by omega), Rfc.Suite.signLayers, g.hp_eq]
    have e2 : idx / B p.tree_height (i + 1) % 2 ^ p.tree_height = leafAt p.tree_height idx (i + 1) := rfl
    have e3 : idx / B p.tree_height (i + 1) / 2 ^ p.tree_height = idx / B p.tree_height (i + 1 + 1) := by
      rw [Nat.div_div_eq_div_mul, B, B, ← pow_add]; congr 2
    rw [e2, e3]
    simp only [Rfc.Suite.treeRoot, g.hp_eq]
    simp only [List.append_assoc]

theorem Key.fastmt_length (f : FastMt p) {k : Key} (hk : k.Valid p) {idx : Nat} {states : List BdsState} {sigs : List Bytes}
    (sh : ExtShape p states sigs) : (k.fast p idx states sigs).length = p.sk_bytes := by
  rw [Key.fast, List.length_append, skHead_length (toByte_length _ _) hk.skSeed hk.skPrf hk.root hk.pubSeed, extBytes_length sh,
    f.sk, fastSkBytes]
  omega

/-- A sign call below the last index on any key whose states can be traversed. -/
theorem fastXmssmtSign_lt (g : p.Good) (hH : ∀ x, (H x).length = p.n) {k : Key} (hk : k.Valid p) {idx : Nat}
    (hi : idx < 2 ^ p.full_height - 1) {states : List BdsState} {sigs : List Bytes} (sh : ExtShape p states sigs)
    (sm : Bytes) (l0 : Nat) (msg : Bytes) (hsm : p.sig_bytes + msg.length ≤ sm.length) (Q : MtLocals → Prop)
    (hQ : ∀ v, Q v → ExtShape p v.states v.sigs)
    (hs : ∀ oa : Addr, oa.a3 = UInt32.ofNat 0 →
      ∃ v, mtTraverse H p k.skSeed k.pubSeed idx (states.map fun s => { s with leaves := 0 }) sigs oa = some v ∧ Q v) :
    ∃ v, Q v ∧ fastXmssmtSign H p (k.fast p idx states sigs) sm l0 msg = some
        { ret := 0
          sk := k.fast p (idx + 1) v.states v.sigs
          sm := Rfc.toByte idx p.index_bytes ++ (suiteOf p H).PRF k.skPrf (Rfc.toByte idx 32) ++
               ((suiteOf p H).wotsSig k.skSeed k.pubSeed ((suiteOf p H).digest ((suiteOf p H).PRF k.skPrf (Rfc.toByte idx 32)) k.root
                 idx msg) 0 (idx / 2 ^ p.tree_height) (idx % 2 ^ p.tree_height)).flatten ++
               (states.getD 0 default).auth.flatten ++ storedLayers states sigs (p.d - 1) 1 ++ msg ++
               sm.drop (p.sig_bytes + msg.length)
          smlen := p.sig_bytes + msg.length
          leaves := totalLeaves v.states } := by
  have hth := g.th_lt
  have hfh := g.fh_lt
  have hidx : idx < 256 ^ p.index_bytes := by have := g.idx_fits; omega
  have hib8 : p.index_bytes ≤ 8 := g.idx_le
  have sh0 : ExtShape p (states.map fun s => { s with leaves := 0 }) sigs := by
    refine ⟨by rw [List.length_map]; exact sh.states_len, ?_, sh.sigs_len, sh.sigs_mem⟩
    intro s hs
    obtain ⟨t, ht, rfl⟩ := List.mem_map.mp hs
    exact (sh.states_mem t ht).with_leaves 0
  obtain ⟨v, hv, e⟩ := fastXmssmtSignBody_eq (H := H) (p := p) g hH (z := []) (y := extBytes states sigs)
    (sm0 := sm.take p.sig_bytes) (old := (sm.drop p.sig_bytes).take msg.length) (post := sm.drop (p.sig_bytes + msg.length))
    (m := msg) (idx := idx) (toByte_length idx p.index_bytes) hk.skSeed hk.skPrf hk.root
    hk.pubSeed (extBytes_length sh) (by simp; omega) (by simp; omega) sh0 Q hQ (fun oa ho => hs oa ho.h3)
  rw [← split3] at e
  simp only [List.append_nil] at e
  refine ⟨v, hv, ?_⟩
  rw [Key.fast, fastXmssmtSign, if_neg (by omega)]
  have hds := deserialize_eq sh (skHead (Rfc.toByte idx p.index_bytes) k.skSeed k.skPrf k.root k.pubSeed) []
    (skHead_length (toByte_length _ _) hk.skSeed hk.skPrf hk.root hk.pubSeed)
  rw [List.append_nil] at hds
  obtain ⟨r1, -⟩ := skPhase (p := p) (extBytes states sigs) (toByte_length idx p.index_bytes) hk.skSeed hk.skPrf hk.root hk.pubSeed 0
  rw [hds]
  simp only [Option.bind_eq_bind, Option.bind_some, r1]
  rw [bytesToUll_eq (by rw [toByte_length]; exact hib8), toNat_toByte, Nat.mod_eq_of_lt hidx]
  simp only [Option.bind_some]
  rw [if_neg (by omega), if_neg (by omega), e]
  have es : ∀ k i, storedLayers (states.map fun s => { s with leaves := 0 }) sigs k i = storedLayers states sigs k i := by
    intro k
    induction k with
    | zero => intro i; rfl
    | succ k ih =>
      intro i
      rw [storedLayers, storedLayers, ih, List.getD_eq_getElem?_getD (l := List.map _ _), List.getElem?_map,
        List.getD_eq_getElem?_getD (l := states)]
      cases states[i]? <;> rfl
  have e0 : ((states.map fun s : BdsState => { s with leaves := 0 }).getD 0 default).auth = (states.getD 0 default).auth := by
    rw [List.getD_eq_getElem?_getD, List.getElem?_map, List.getD_eq_getElem?_getD]
    cases states[0]? <;> rfl
  rw [es, e0]
  rfl

/-- One call below the last index and below `2^(h(u+2))`. -/
theorem fastXmssmtSign_step (f : FastMt p) (hH : ∀ x, (H x).length = p.n) {k : Key} (hk : k.Valid p) {idx : Nat}
    (hi : idx < 2 ^ p.full_height - 1) (htop : idx + 1 < B p.tree_height (p.insts / 2 + 2)) (hz : ∀ i ≤ p.insts / 2, z i = none) {states : List BdsState}
    {sigs : List Bytes} (mi : MtInv H p k.skSeed k.pubSeed z idx states sigs) (sm : Bytes) (l0 : Nat) (m : Bytes)
    (hsm : p.sig_bytes + m.length ≤ sm.length) :
    ∃ states' sigs' n, MtInv H p k.skSeed k.pubSeed z (idx + 1) states' sigs' ∧
      ((¬ B p.tree_height (p.insts / 2 + 1) ∣ idx + 1 → n ≤ p.insts / 2 + 2) ∧
        (B p.tree_height (p.insts / 2 + 1) ∣ idx + 1 → n ≤ 2 ^ (p.tree_height - 2) + (p.d - 2 - p.insts / 2))) ∧
      (∀ j, 0 < j → j < p.d → B p.tree_height j ∣ idx + 1 → p.insts / 2 < j →
        ∃ A, AllDone p.tree_height A ∧
          remWork p.tree_height (restart p.tree_height p.tree_height (leafAt p.tree_height idx j + 1) A) + 1 +
            (if p.tree_height ≤ 5 ∧ p.d ≤ 100 ∧ j = p.insts / 2 + 1 then p.d - 1 - j else 0) ≤ n) ∧
      fastXmssmtSign H p (k.fast p idx states sigs) sm l0 m = some
        { ret := 0
          sk := k.fast p (idx + 1) states' sigs'
          sm := (suiteOf p H).sign k.skSeed k.skPrf k.root k.pubSeed idx m ++ m ++ sm.drop (p.sig_bytes + m.length)
          smlen := p.sig_bytes + m.length
          leaves := n } := by
  have g := f.good
  have hd2 := f.d
  obtain ⟨v, ⟨hv1, hv2, hv3⟩, e⟩ := fastXmssmtSign_lt g hH hk hi (mi.ext g hH) sm l0 m hsm
    (fun v => MtInv H p k.skSeed k.pubSeed z (idx + 1) v.states v.sigs ∧
      ((¬ B p.tree_height (p.insts / 2 + 1) ∣ idx + 1 → totalLeaves v.states ≤ p.insts / 2 + 2) ∧
        (B p.tree_height (p.insts / 2 + 1) ∣ idx + 1 → totalLeaves v.states ≤ 2 ^ (p.tree_height - 2) + (p.d - 2 - p.insts / 2))) ∧
      (∀ j, 0 < j → j < p.d → B p.tree_height j ∣ idx + 1 → p.insts / 2 < j →
        ∃ A, AllDone p.tree_height A ∧
          remWork p.tree_height (restart p.tree_height p.tree_height (leafAt p.tree_height idx j + 1) A) + 1 +
            (if p.tree_height ≤ 5 ∧ p.d ≤ 100 ∧ j = p.insts / 2 + 1 then p.d - 1 - j else 0) ≤ totalLeaves v.states))
    (fun v h => h.1.ext g hH) (by
      intro oa ho
      obtain ⟨v, e1, e2, e3, e4, e5⟩ := mtTraverse_eq f hH (mi.with_leaves 0) (by omega) htop hz ho
      rw [totalLeaves_zero] at e3 e4 e5
      refine ⟨v, e1, e2, ⟨fun h => by have := e3 h; omega, fun h => by have := e5 h; omega⟩, ?_⟩
      intro j a1 a2 a3 a4
      obtain ⟨A, b1, b2⟩ := e4 j a1 a2 a3 a4
      exact ⟨A, b1, by omega⟩)
  refine ⟨v.states, v.sigs, _, hv1, hv2, hv3, ?_⟩
  rw [e]
  have hd' : (suiteOf p H).d = (p.d - 1) + 1 := by show p.d = _; omega
  have es := storedLayers_eq g mi (p.d - 1) 0 (by omega)
  rw [Nat.zero_add] at es
  have eB : B p.tree_height 1 = 2 ^ p.tree_height := by rw [B, mul_one]
  have eL : leafAt p.tree_height idx 0 = idx % 2 ^ p.tree_height := by rw [leafAt, B_zero, Nat.div_one]
  rw [eB, eL] at es
  congr 2
  rw [Rfc.Suite.sign, hd', Rfc.Suite.signLayers, g.hp_eq]
  congr 2
  simp only [List.append_assoc] at es ⊢
  rw [← List.append_assoc (states.getD 0 default).auth.flatten, es]
  simp only [List.append_assoc]
  rfl

end Xmss
