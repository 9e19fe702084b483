import Verif.Proof.FastBody
import Verif.Proof.BdsBuild
import Verif.Spec.FastKeys
/-
Single-tree fast implementation: key generation and signing in terms of RFC 8391.
-/
namespace Xmss
open Sched

variable {H : Bytes → Bytes} {p : Params}

theorem Shape.with_leaves {s : BdsState} (h : Shape p s) (n : Nat) : Shape p { s with leaves := n } :=
  ⟨h.stack_len, h.stack_mem, h.levels_len, h.levels_mem, h.auth_len, h.auth_mem, h.keep_len, h.keep_mem, h.insts_len,
    h.insts_mem, h.retain_len, h.retain_mem, h.off_lt, h.next_lt⟩

theorem TreeInv.with_leaves {N : Nat → Nat → Bytes} {base : List (Bytes × Nat)} {φ : Nat} {pr : Nat → Nat}
    {seg : Nat → List (Bytes × Nat)} {s : BdsState} (h : TreeInv p N base φ pr seg s) (n : Nat) :
    TreeInv p N base φ pr seg { s with leaves := n } :=
  ⟨⟨h.work.shape.with_leaves n, h.work.inst, h.work.nested, ⟨h.work.stack.off, h.work.stack.stack, h.work.stack.levels⟩,
    h.work.base_len, h.work.base_ge⟩, h.auth, h.keep, h.retain⟩

theorem Ready.with_leaves {N : Nat → Nat → Bytes} {base : List (Bytes × Nat)} {φ : Nat} {s : BdsState}
    (h : Ready p N base φ s) (n : Nat) : Ready p N base φ { s with leaves := n } := by
  obtain ⟨pr, seg, h1, h2, h3⟩ := h
  exact ⟨pr, seg, h1.with_leaves n, h2, h3⟩

theorem Ready.shape {N : Nat → Nat → Bytes} {base : List (Bytes × Nat)} {φ : Nat} {s : BdsState}
    (h : Ready p N base φ s) : Shape p s := by
  obtain ⟨pr, seg, h1, _, _⟩ := h
  exact h1.work.shape

/-- The stored authentication path is the one of the current leaf. -/
theorem auth_eq_authPath (g : p.Good) {skSeed pubSeed : Bytes} {layer tree φ : Nat} {s : BdsState} (sh : Shape p s)
    (h : ∀ i < p.tree_height, s.auth[i]? = some ((suiteOf p H).node skSeed pubSeed layer tree i (Rfc.Suite.sibling (φ / 2 ^ i)))) :
    s.auth = (suiteOf p H).authPath skSeed pubSeed layer tree φ := by
  apply List.ext_getElem?
  intro i
  by_cases hi : i < p.tree_height
  · rw [h i hi, Rfc.Suite.authPath, List.getElem?_map, g.hp_eq, List.getElem?_range hi]
    rfl
  · rw [List.getElem?_eq_none (by rw [sh.auth_len]; omega),
      List.getElem?_eq_none (by rw [authPath_length g]; omega)]

/-- Zeroing the arrays keeps the sizes. -/
theorem Shape.wipe {s : BdsState} (h : Shape p s) : Shape p s.wipe := by
  have z : ∀ {l : List Bytes}, (∀ x ∈ l, x.length = p.n) → ∀ x ∈ l.map (fun x => List.replicate x.length (0 : UInt8)), x.length = p.n := by
    intro l hl x hx
    obtain ⟨y, hy, rfl⟩ := List.mem_map.mp hx
    rw [List.length_replicate]; exact hl y hy
  refine ⟨?_, z h.stack_mem, ?_, ?_, ?_, z h.auth_mem, ?_, z h.keep_mem, ?_, ?_, ?_, z h.retain_mem, h.off_lt, h.next_lt⟩
  · simpa [BdsState.wipe] using h.stack_len
  · simpa [BdsState.wipe] using h.levels_len
  · intro x hx
    obtain ⟨y, hy, rfl⟩ := List.mem_map.mp hx
    omega
  · simpa [BdsState.wipe] using h.auth_len
  · simpa [BdsState.wipe] using h.keep_len
  · simpa [BdsState.wipe] using h.insts_len
  · intro t ht
    obtain ⟨y, hy, rfl⟩ := List.mem_map.mp ht
    have := h.insts_mem y hy
    simpa using this
  · simpa [BdsState.wipe] using h.retain_len

/-- Parameters of the single-tree fast implementation for which the traversal keeps its deadlines. -/
structure Fast1 (p : Params) : Prop where
  good : p.Good
  d : p.d = 1
  ib : p.index_bytes = 4
  th : 3 ≤ p.tree_height
  k : p.bds_k ≤ p.tree_height
  sk : p.sk_bytes = fastSkBytes p

theorem Fast1.full (f : Fast1 p) : p.full_height = p.tree_height := by
  have := f.good.height; rw [f.d, mul_one] at this; exact this.symm

theorem ext1_length {s : BdsState} (sh : Shape p s) : (extBytes [s] []).length = bdsStateBytes p := by
  simp only [extBytes, List.map_cons, List.map_nil, List.flatten_cons, List.flatten_nil, List.append_nil]
  exact stateBytes_length sh

theorem Fast1.extShape (f : Fast1 p) {s : BdsState} (sh : Shape p s) : ExtShape p [s] [] :=
  ⟨by rw [f.d]; rfl, by simpa using sh, by rw [f.d]; rfl, by simp⟩

/-- Secret key buffer of the fast implementation (without OID). -/
def Key.fast (k : Key) (p : Params) (idx : Nat) (states : List BdsState) (sigs : List Bytes) : Bytes :=
  skHead (Rfc.toByte idx p.index_bytes) k.skSeed k.skPrf k.root k.pubSeed ++ extBytes states sigs

theorem sign_one (g : p.Good) (hd : p.d = 1) {k : Key} {idx : Nat} (hi : idx < 2 ^ p.tree_height) {m : Bytes} :
    Rfc.toByte idx p.index_bytes ++ (suiteOf p H).PRF k.skPrf (Rfc.toByte idx 32) ++
      ((suiteOf p H).wotsSig k.skSeed k.pubSeed ((suiteOf p H).digest ((suiteOf p H).PRF k.skPrf (Rfc.toByte idx 32)) k.root
        idx m) 0 0 idx).flatten ++ ((suiteOf p H).authPath k.skSeed k.pubSeed 0 0 idx).flatten =
      (suiteOf p H).sign k.skSeed k.skPrf k.root k.pubSeed idx m := by
  have hd' : (suiteOf p H).d = 1 := hd
  rw [Rfc.Suite.sign, hd']
  simp only [Rfc.Suite.signLayers, g.hp_eq, Nat.mod_eq_of_lt hi, Nat.div_eq_of_lt hi, List.append_nil, List.append_assoc]
  rfl

/-- One call below the last index. -/
theorem fastXmssSign_step (f : Fast1 p) (hu : min p.insts (p.tree_height - 2) ≤ 2 * (p.insts / 2))
    (hH : ∀ x, (H x).length = p.n) {k : Key} (hk : k.Valid p) {idx : Nat}
    (hi : idx < 2 ^ p.full_height - 1) {s : BdsState}
    (r : Ready p ((suiteOf p H).node k.skSeed k.pubSeed 0 0) [] idx s) (sm : Bytes) (l0 : Nat) (m : Bytes)
    (hsm : p.sig_bytes + m.length ≤ sm.length) :
    ∃ s' n, Ready p ((suiteOf p H).node k.skSeed k.pubSeed 0 0) [] (idx + 1) s' ∧ n ≤ p.insts / 2 + 1 ∧
      fastXmssSign H p (k.fast p idx [s] []) sm l0 m = some
        { ret := 0
          sk := k.fast p (idx + 1) [s'] []
          sm := (suiteOf p H).sign k.skSeed k.skPrf k.root k.pubSeed idx m ++ m ++ sm.drop (p.sig_bytes + m.length)
          smlen := p.sig_bytes + m.length
          leaves := n } := by
  have g := f.good
  have hth := g.th_lt
  have hfh := g.fh_lt
  have hfull := f.full
  rw [hfull] at hi
  have hi1 : idx < 2 ^ p.tree_height := by omega
  have hidx : idx < 256 ^ p.index_bytes := by have := g.idx_fits; rw [hfull] at this; omega
  have sh := r.shape
  have r0 := r.with_leaves 0
  obtain ⟨s', h', e⟩ := fastXmssSignBody_eq (H := H) (p := p) g hH f.d f.ib (z := []) (y := extBytes [s] [])
    (sm0 := sm.take p.sig_bytes) (old := (sm.drop p.sig_bytes).take m.length) (post := sm.drop (p.sig_bytes + m.length))
    (m := m) (s := { s with leaves := 0 }) (idx := idx) (toByte_length idx p.index_bytes) hk.skSeed hk.skPrf hk.root
    hk.pubSeed (ext1_length sh) (by simp; omega) (by simp; omega) r0.shape
    (fun s' => Ready p ((suiteOf p H).node k.skSeed k.pubSeed 0 0) [] (idx + 1) s' ∧ s'.leaves ≤ p.insts / 2 + 1)
    (fun s' h => h.1.shape)
    (by
      intro a ha
      obtain ⟨s1, s2, n, e1, e2, e3, e4, _, e6⟩ := Ready.step (treeCtx_suite g hH k.skSeed k.pubSeed 0 0) hth hu ha r0
        (show idx + 1 < 2 ^ p.tree_height by omega)
      refine ⟨s2, ?_, e3, ?_⟩
      · rw [if_pos (by rw [Nat.one_shiftLeft]; exact hi), show p.insts >>> 1 = p.insts / 2 from rfl]
        simp only [e1, e2, Option.bind_eq_bind, Option.bind_some]
      · rw [e6]
        show 0 + _ + n ≤ _
        split <;> omega)
  rw [← split3] at e
  simp only [List.append_nil] at e
  refine ⟨s', s'.leaves, h'.1, h'.2, ?_⟩
  obtain ⟨pr, seg, ti, _, _⟩ := r
  have hauth := auth_eq_authPath (H := H) g (s := s) sh ti.auth
  rw [Key.fast, fastXmssSign, if_neg (by omega)]
  have hds := deserialize_eq (f.extShape sh) (skHead (Rfc.toByte idx p.index_bytes) k.skSeed k.skPrf k.root k.pubSeed) []
    (skHead_length (toByte_length _ _) hk.skSeed hk.skPrf hk.root hk.pubSeed)
  rw [List.append_nil] at hds
  obtain ⟨r1, -⟩ := skPhase (p := p) (extBytes [s] []) (toByte_length idx p.index_bytes) hk.skSeed hk.skPrf hk.root hk.pubSeed 0
  rw [f.ib] at r1
  rw [hds]
  simp only [Option.bind_eq_bind, Option.bind_some, List.map_cons, List.map_nil, List.getElem?_cons_zero]
  rw [f.ib] at *
  simp only [r1, Option.bind_some]
  rw [bytesToUll_eq (by rw [toByte_length]; omega), toNat_toByte, Nat.mod_eq_of_lt hidx]
  simp only [Option.bind_some]
  rw [if_neg (by omega), if_neg (by rw [hfull]; omega), e]
  congr 2
  rw [← sign_one (H := H) g f.d hi1, ← hauth, f.ib]
  · simp [Key.fast, f.ib]

theorem replicate_split (a b : Nat) : (List.replicate (4 * a + b) (0 : UInt8)) =
    List.replicate a 0 ++ List.replicate a 0 ++ List.replicate a 0 ++ List.replicate a 0 ++ List.replicate b 0 := by
  simp only [List.append_assoc, List.replicate_append_replicate]
  congr 1; ring

/-- What the wiped key looks like to the rest of the sign function. -/
theorem wipe_head (b : Nat) : List.replicate p.index_bytes (0xFF : UInt8) ++ List.replicate (4 * p.n + b) 0 =
    skHead (List.replicate p.index_bytes 0xFF) (Key.zero p).skSeed (Key.zero p).skPrf (Key.zero p).root (Key.zero p).pubSeed ++
      List.replicate b 0 := by
  rw [replicate_split]
  simp [skHead, Key.zero]

/-- The authentication path in the last signature. -/
theorem wipe_auth {s : BdsState} (sh : Shape p s) : s.wipe.auth.flatten = List.replicate (p.tree_height * p.n) 0 := by
  have e : s.wipe.auth = s.auth.map (fun x => List.replicate x.length 0) := rfl
  have hl := sh.auth_len
  have hm := sh.auth_mem
  rw [e, ← hl]
  generalize s.auth = l at hm
  clear hl
  induction l with
  | nil => simp
  | cons x l ih =>
    rw [List.map_cons, List.flatten_cons, ih (fun y hy => hm y (by simp [hy])), hm x (by simp),
      List.replicate_append_replicate, List.length_cons]
    congr 1; ring

/-- The call that uses the last index: the key is deleted first, so everything is computed from zeros. -/
theorem fastXmssSign_last (f : Fast1 p) (hH : ∀ x, (H x).length = p.n) {k : Key} (hk : k.Valid p) {s : BdsState}
    (sh : Shape p s) (sm : Bytes) (l0 : Nat) (m : Bytes) (hsm : p.sig_bytes + m.length ≤ sm.length) :
    ∃ s' n, Shape p s' ∧ n = 0 ∧
      fastXmssSign H p (k.fast p (2 ^ p.full_height - 1) [s] []) sm l0 m = some
        { ret := 0
          sk := (Key.zero p).fast p (2 ^ p.full_height) [s'] []
          sm := Rfc.toByte (2 ^ p.full_height - 1) p.index_bytes ++
            (suiteOf p H).PRF (Key.zero p).skPrf (Rfc.toByte (2 ^ p.full_height - 1) 32) ++
            ((suiteOf p H).wotsSig (Key.zero p).skSeed (Key.zero p).pubSeed
              ((suiteOf p H).digest ((suiteOf p H).PRF (Key.zero p).skPrf (Rfc.toByte (2 ^ p.full_height - 1) 32)) (Key.zero p).root
              (2 ^ p.full_height - 1) m) 0 0 (2 ^ p.full_height - 1)).flatten ++
            List.replicate (p.tree_height * p.n) 0 ++ m ++ sm.drop (p.sig_bytes + m.length)
          smlen := p.sig_bytes + m.length
          leaves := n } := by
  have g := f.good
  have hth := g.th_lt
  have hfh := g.fh_lt
  have hfull := f.full
  have hpos : 0 < 2 ^ p.full_height := Nat.two_pow_pos _
  obtain ⟨idx, hidx⟩ : ∃ idx, idx = 2 ^ p.full_height - 1 := ⟨_, rfl⟩
  rw [← hidx]
  have e1 : 2 ^ p.full_height = idx + 1 := by omega
  rw [e1]
  have hlt : idx < 256 ^ p.index_bytes := by have := g.idx_fits; omega
  have hz : (Key.zero p).Valid p := ⟨by simp [Key.zero], by simp [Key.zero], by simp [Key.zero], by simp [Key.zero]⟩
  have shw : Shape p (BdsState.wipe { s with leaves := 0 }) := (sh.with_leaves 0).wipe
  obtain ⟨s', h', e⟩ := fastXmssSignBody_eq (H := H) (p := p) g hH f.d f.ib (z := []) (y := List.replicate (bdsStateBytes p) 0)
    (ib := List.replicate p.index_bytes 0xFF)
    (sm0 := sm.take p.sig_bytes) (old := (sm.drop p.sig_bytes).take m.length) (post := sm.drop (p.sig_bytes + m.length))
    (m := m) (s := (BdsState.wipe { s with leaves := 0 })) (idx := idx) (by simp) hz.skSeed hz.skPrf hz.root
    hz.pubSeed (by simp) (by simp; omega) (by simp; omega) shw (fun s' => s' = BdsState.wipe { s with leaves := 0 })
    (fun s' h => h ▸ shw)
    (by
      intro a ha
      refine ⟨_, ?_, rfl⟩
      rw [if_neg (by rw [Nat.one_shiftLeft, ← hfull]; omega)])
  rw [← split3] at e
  simp only [List.append_nil] at e
  refine ⟨s', s'.leaves, h' ▸ shw, by rw [h']; rfl, ?_⟩
  rw [Key.fast, fastXmssSign, if_neg (by omega)]
  have hds := deserialize_eq (f.extShape sh) (skHead (Rfc.toByte idx p.index_bytes) k.skSeed k.skPrf k.root k.pubSeed) []
    (skHead_length (toByte_length _ _) hk.skSeed hk.skPrf hk.root hk.pubSeed)
  rw [List.append_nil] at hds
  obtain ⟨r1, -⟩ := skPhase (p := p) (extBytes [s] []) (toByte_length idx p.index_bytes) hk.skSeed hk.skPrf hk.root hk.pubSeed 0
  have hw : wipeKey p (skHead (Rfc.toByte idx p.index_bytes) k.skSeed k.skPrf k.root k.pubSeed ++ extBytes [s] []) =
      some (skHead (List.replicate p.index_bytes 0xFF) (Key.zero p).skSeed (Key.zero p).skPrf (Key.zero p).root (Key.zero p).pubSeed ++
      List.replicate (bdsStateBytes p) 0) := by
    rw [← wipe_head]
    simp only [skHead, List.append_assoc]
    apply wipeKey_eq _ _ (toByte_length _ _) (l := 4 * p.n + bdsStateBytes p)
    · simp only [List.length_append, hk.skSeed, hk.skPrf, hk.root, hk.pubSeed, ext1_length sh]; omega
    · rw [f.sk, fastSkBytes, f.d]; omega
  rw [hds]
  simp only [Option.bind_eq_bind, Option.bind_some, List.map_cons, List.map_nil, List.getElem?_cons_zero]
  have r1' : rd (skHead (Rfc.toByte idx p.index_bytes) k.skSeed k.skPrf k.root k.pubSeed ++ extBytes [s] []) 0 4 =
    some (Rfc.toByte idx p.index_bytes) := by rw [← r1, f.ib]
  simp only [r1', Option.bind_some]
  rw [bytesToUll_eq (by rw [toByte_length]; have := f.ib; omega), toNat_toByte, Nat.mod_eq_of_lt hlt]
  simp only [Option.bind_some]
  rw [if_neg (by omega), if_pos (by omega), hw]
  simp only [Option.bind_some]
  rw [if_neg (by omega), e, wipe_auth (sh.with_leaves 0)]
  rfl

theorem fastLastSig_length (g : p.Good) (hH : ∀ x, (H x).length = p.n) (m : Bytes) :
    (fastLastSig p H m).length = p.sig_bytes := by
  have hsl' := wotsSig_flat_length g hH (Key.zero p).skSeed (Key.zero p).pubSeed
    ((suiteOf p H).digest ((suiteOf p H).PRF (Key.zero p).skPrf (Rfc.toByte (2 ^ p.full_height - 1) 32)) (Key.zero p).root
      (2 ^ p.full_height - 1) m) 0 ((2 ^ p.full_height - 1) / 2 ^ p.tree_height) ((2 ^ p.full_height - 1) % 2 ^ p.tree_height)
  have hR : ((suiteOf p H).PRF (Key.zero p).skPrf (Rfc.toByte (2 ^ p.full_height - 1) 32)).length = p.n := hH _
  have hs := g.sig_eq'
  have hsw := g.sig_wots
  have hd := g.d_pos
  have hB : (p.wots_len + p.tree_height) * p.n = p.wots_sig_bytes + p.tree_height * p.n := by rw [hsw]; ring
  have hdB : p.d * (p.wots_sig_bytes + p.tree_height * p.n) =
    p.wots_sig_bytes + p.tree_height * p.n + (p.d - 1) * (p.wots_sig_bytes + p.tree_height * p.n) := by
    obtain ⟨k, hk⟩ : ∃ k, p.d = k + 1 := ⟨p.d - 1, by omega⟩
    rw [hk, Nat.add_sub_cancel]; ring
  rw [hB, hdB] at hs
  simp only [fastLastSig, List.length_append, toByte_length, hR, hsl', List.length_replicate]
  omega

/-- Every call with an index behind the last one: nothing is signed, the key is deleted. -/
theorem fastXmssSign_exhausted (f : Fast1 p) {ib body : Bytes} (hib : ib.length = p.index_bytes)
    (hb : p.index_bytes + body.length = p.sk_bytes) (hi : 2 ^ p.full_height ≤ Rfc.toNat ib) (sm : Bytes) (l0 : Nat) (m : Bytes) :
    fastXmssSign H p (ib ++ body) sm l0 m = some
        { ret := -2
          sk := List.replicate p.index_bytes 0xFF ++ List.replicate body.length 0
          sm := sm
          smlen := l0
          leaves := 0 } := by
  have g := f.good
  have hth := g.th_lt
  have hfh := g.fh_lt
  have hpos : 0 < 2 ^ p.full_height := Nat.two_pow_pos _
  obtain ⟨states, sigs, e, sh, _, _⟩ := deserialize_any (p := p) (ib ++ body)
    (by rw [List.length_append, hib, hb, f.sk])
  have hst0 : 0 < states.length := by have := sh.states_len; rw [f.d] at this; omega
  rw [fastXmssSign, if_neg (by omega), e]
  have r1 : rd (ib ++ body) 0 4 = some ib := rd_mid [] body (by simp) rfl (by rw [hib, f.ib])
  simp only [Option.bind_eq_bind, Option.bind_some, List.getElem?_eq_getElem hst0, r1]
  rw [bytesToUll_eq (by rw [hib, f.ib]; omega)]
  simp only [Option.bind_some]
  rw [if_neg (by omega), if_pos (by omega), wipeKey_eq ib body hib rfl hb.symm]
  simp only [Option.bind_some]
  rw [if_pos (by omega)]

/-- Key generation from buffers with any content. -/
theorem fastXmssKeypair_run (f : Fast1 p) (hH : ∀ x, (H x).length = p.n) (pk sk sA sB sC : Bytes)
    (hpk : pk.length = 2 * p.n) (hsk : sk.length = p.sk_bytes)
    (hA : sA.length = p.n) (hB : sB.length = p.n) (hC : sC.length = p.n) :
    ∃ s0 s, deserializeStates p sk = some ([s0], []) ∧
    treehashInit H p { s0 with stackoffset := 0, nextLeaf := 0 } sA sC Addr.zero = some ((suiteOf p H).root sA sC, s) ∧
    Ready p ((suiteOf p H).node sA sC 0 0) [] 0 s ∧
    fastXmssKeypair H p pk sk (sA ++ sB ++ sC) =
      some ((suiteOf p H).root sA sC ++ sC, (Key.mk sA sB ((suiteOf p H).root sA sC) sC).fast p 0 [s] []) := by
  have g := f.good
  have hth := g.th_lt
  have hd := f.d
  have hib := f.ib
  have hsk' := f.sk
  rw [fastSkBytes, hd] at hsk'
  obtain ⟨states, sigs, e, sh, _, _⟩ := deserialize_any (p := p) sk (by rw [hsk, f.sk])
  have hst : states.length = 1 := by rw [sh.states_len, hd]
  obtain ⟨s0, rfl⟩ := List.length_eq_one_iff.mp hst
  have hsg : sigs = [] := List.eq_nil_of_length_eq_zero (by rw [sh.sigs_len, hd])
  subst hsg
  have sh0 := sh.states_mem s0 (by simp)
  have sh1 : Shape p { s0 with stackoffset := 0, nextLeaf := 0 } :=
    ⟨sh0.stack_len, sh0.stack_mem, sh0.levels_len, sh0.levels_mem, sh0.auth_len, sh0.auth_mem, sh0.keep_len, sh0.keep_mem,
      sh0.insts_len, sh0.insts_mem, sh0.retain_len, sh0.retain_mem, by simp, by simp⟩
  obtain ⟨s', e1, ti, _, _⟩ := treehashInit_eq (treeCtx_suite g hH sA sC 0 0) hth f.th f.k (addr := Addr.zero)
    ⟨rfl, rfl, rfl⟩ sh1 rfl
  have hroot : (suiteOf p H).node sA sC 0 0 p.tree_height 0 = (suiteOf p H).root sA sC := by
    have hd' : (suiteOf p H).d = 1 := hd
    rw [Rfc.Suite.root, Rfc.Suite.treeRoot, g.hp_eq, hd']
  rw [hroot] at e1
  refine ⟨s0, s', e, e1, Ready.start ti, ?_⟩
  set T := (suiteOf p H).root sA sC with hT
  have hTl : T.length = p.n := node_length g hH _ _ _ _ _ _
  have hxl := ext1_length ti.work.shape
  obtain ⟨k0, k1, k2, k3, k4, k5, rfl, i0, i1, i2, i3, i4, i5⟩ : ∃ k0 k1 k2 k3 k4 k5 : Bytes, sk = k0 ++ k1 ++ k2 ++ k3 ++ k4 ++ k5 ∧
      k0.length = p.index_bytes ∧ k1.length = p.n ∧ k2.length = p.n ∧ k3.length = p.n ∧ k4.length = p.n ∧
      k5.length = bdsStateBytes p := by
    refine ⟨sk.take p.index_bytes, (sk.drop p.index_bytes).take p.n, (sk.drop (p.index_bytes + p.n)).take p.n,
      (sk.drop (p.index_bytes + p.n + p.n)).take p.n, (sk.drop (p.index_bytes + p.n + p.n + p.n)).take p.n,
      sk.drop (p.index_bytes + p.n + p.n + p.n + p.n), ?_, ?_, ?_, ?_, ?_, ?_, ?_⟩
    · rw [← List.take_add, ← List.take_add, ← List.take_add, ← List.take_add, List.take_append_drop]
    all_goals simp; omega
  obtain ⟨q0, q1, rfl, j0, j1⟩ : ∃ q0 q1 : Bytes, pk = q0 ++ q1 ∧ q0.length = p.n ∧ q1.length = p.n :=
    ⟨_, _, (List.take_append_drop p.n pk).symm, by simp; omega, by simp; omega⟩
  rw [fastXmssKeypair, if_neg (by omega), e]
  set Z : Bytes := [0, 0, 0, 0] with hZ
  have hZl : Z.length = p.index_bytes := by rw [hib]; rfl
  have w1 : wr (k0 ++ k1 ++ k2 ++ k3 ++ k4 ++ k5) 0 Z = some (Z ++ k1 ++ k2 ++ k3 ++ k4 ++ k5) := by
    rw [wr_mid (buf := k0 ++ k1 ++ k2 ++ k3 ++ k4 ++ k5) (off := 0) (y := k0) [] (k1 ++ k2 ++ k3 ++ k4 ++ k5) (by simp) rfl (by omega)]; simp
  have r1 : rd (sA ++ sB ++ sC) 0 (2 * p.n) = some (sA ++ sB) := rd_mid [] sC (by simp) rfl (by simp [hA, hB]; omega)
  have w2 : wr (Z ++ k1 ++ k2 ++ k3 ++ k4 ++ k5) p.index_bytes (sA ++ sB) = some (Z ++ sA ++ sB ++ k3 ++ k4 ++ k5) := by
    rw [wr_mid (y := k1 ++ k2) Z (k3 ++ k4 ++ k5) (by simp) hZl.symm (by simp; omega)]; simp
  have r2 : rd (sA ++ sB ++ sC) (2 * p.n) p.n = some sC := rd_mid (sA ++ sB) [] (by simp) (by simp [hA, hB]; omega) hC.symm
  have w3 : wr (Z ++ sA ++ sB ++ k3 ++ k4 ++ k5) (p.index_bytes + 3 * p.n) sC = some (Z ++ sA ++ sB ++ k3 ++ sC ++ k5) :=
    wr_mid (y := k4) (Z ++ sA ++ sB ++ k3) k5 rfl (by simp only [List.length_append]; omega) (by omega)
  have r3 : rd (Z ++ sA ++ sB ++ k3 ++ sC ++ k5) (p.index_bytes + 3 * p.n) p.n = some sC :=
    rd_mid (Z ++ sA ++ sB ++ k3) k5 rfl (by simp only [List.length_append]; omega) hC.symm
  have r4 : rd (Z ++ sA ++ sB ++ k3 ++ sC ++ k5) p.index_bytes p.n = some sA :=
    rd_mid Z (sB ++ k3 ++ sC ++ k5) (by simp) hZl.symm hA.symm
  have w4 : wr (q0 ++ q1) p.n sC = some (q0 ++ sC) := by
    rw [wr_mid (y := q1) q0 [] (by simp) j0.symm (by omega)]; simp
  have w5 : wr (q0 ++ sC) 0 T = some (T ++ sC) := by
    rw [wr_mid (buf := q0 ++ sC) (off := 0) (y := q0) [] sC (by simp) rfl (by omega)]; simp
  have r5 : rd (T ++ sC) 0 p.n = some T := rd_mid [] sC (by simp) rfl hTl.symm
  have w6 : wr (Z ++ sA ++ sB ++ k3 ++ sC ++ k5) (p.index_bytes + 2 * p.n) T = some (skHead Z sA sB T sC ++ k5 ++ []) := by
    rw [wr_mid (y := k3) (Z ++ sA ++ sB) (sC ++ k5) (by simp) (by simp only [List.length_append]; omega) (by omega)]
    simp [skHead]
  have w7 := serialize_eq (p := p) (states := [s']) (sigs := []) (skHead Z sA sB T sC) k5 []
    (skHead_length hZl hA hB hTl hC) (by rw [hxl, i5])
  simp only [Option.bind_eq_bind, Option.bind_some, List.getElem?_cons_zero, w1, r1, w2, r2, w3, r3, w4, r4, e1, w5, r5, w6, w7,
    Key.fast]
  have hz : Z = Rfc.toByte 0 p.index_bytes := by rw [hib]; rfl
  rw [hz, List.append_nil]

theorem fastXmssKeypair_eq (f : Fast1 p) (hH : ∀ x, (H x).length = p.n) (pk sk sA sB sC : Bytes)
    (hpk : pk.length = 2 * p.n) (hsk : sk.length = p.sk_bytes)
    (hA : sA.length = p.n) (hB : sB.length = p.n) (hC : sC.length = p.n) :
    ∃ s, Ready p ((suiteOf p H).node sA sC 0 0) [] 0 s ∧
    fastXmssKeypair H p pk sk (sA ++ sB ++ sC) =
      some ((suiteOf p H).root sA sC ++ sC, (Key.mk sA sB ((suiteOf p H).root sA sC) sC).fast p 0 [s] []) := by
  obtain ⟨_, s, _, _, h⟩ := fastXmssKeypair_run f hH pk sk sA sB sC hpk hsk hA hB hC
  exact ⟨s, h⟩

end Xmss
