import Verif.Props.CrashUsable
import Verif.Proof.FastGen
import Verif.Proof.BdsSafe
/-
C57 for the tools linked with the fast implementation: a crash between the index and the traversal state.
-/
namespace Xmss

variable {P : Prims} {f : Family} {oid : Nat} {p : Params} {H : Bytes → Bytes}

/-! ### A crash at an arbitrary byte of the key file update -/

theorem crash_exists_fast {oidp : Nat} {pp : Params} (hpp : f.parseFast oidp = some pp) (hp : f.parseFast oid = some p)
    {junk : Nat → Bytes} {pkb T m body body' : Bytes} (hpk : pkb.length = pp.pk_bytes) (hb : body.length = p.sk_bytes)
    (hb' : body'.length = p.sk_bytes) (mayFlush : Nat → Prop) (l0 : Nat) {o : FastOut}
    (e : f.signFast P (Rfc.toByte oid 4 ++ body) (junk (p.sig_bytes + m.length)) l0 m = some { o with sk := Rfc.toByte oid 4 ++ body' })
    (hout : o.smlen ≤ o.sm.length) {j : Nat} (hj0 : 0 < j) (hjb : j ≤ p.sk_bytes) :
    CrashRunFast P f junk l0 mayFlush (Rfc.toByte oidp 4 ++ pkb ++ (Rfc.toByte oid 4 ++ body) ++ T) m []
      (Rfc.toByte oidp 4 ++ pkb ++ (Rfc.toByte oid 4 ++ (body'.take j ++ body.drop j)) ++ T) := by
  let A' := Rfc.toByte oidp 4 ++ pkb ++ Rfc.toByte oid 4
  have hA : 4 + pp.pk_bytes + oidLen = A'.length := by
    simp only [A', List.length_append, toByte_length, hpk, oidLen]
  have hfile : Rfc.toByte oidp 4 ++ pkb ++ (Rfc.toByte oid 4 ++ body) ++ T = A' ++ body ++ T := by simp [A']
  have hw : wr (A' ++ body ++ T) A'.length (body'.take j) =
      some (Rfc.toByte oidp 4 ++ pkb ++ (Rfc.toByte oid 4 ++ (body'.take j ++ body.drop j)) ++ T) := by
    rw [wr_mid (y := body.take j) A' (body.drop j ++ T) ?_ rfl ?_]
    · simp [A']
    · rw [List.append_assoc A' (List.take j _), ← List.append_assoc (List.take j _), List.take_append_drop, List.append_assoc]
    · rw [List.length_take, List.length_take, hb, hb']
  have hio : IoReach mayFlush (((Rfc.toByte oid 4 ++ body').drop oidLen).take p.sk_bytes) (o.sm.take o.smlen)
      (ioStart (Rfc.toByte oidp 4 ++ pkb ++ (Rfc.toByte oid 4 ++ body) ++ T) (4 + pp.pk_bytes + oidLen))
      { keyFile := Rfc.toByte oidp 4 ++ pkb ++ (Rfc.toByte oid 4 ++ (body'.take j ++ body.drop j)) ++ T
        keyPos := A'.length + j
        keyPend := body'.drop j
        out := []
        outPend := o.sm.take o.smlen
        todo := [.closeKey, .exit] } := by
    rw [hfile, hA, show (Rfc.toByte oid 4 ++ body').drop oidLen = body' from List.drop_left' (toByte_length _ _),
      List.take_of_length_le (by rw [hb'])]
    refine .step (.step (.step .refl (.writeKey _ _ rfl)) (.writeOut _ _ rfl)) ?_
    refine IoStep.flushKey _ j _ (by omega) ?_ (Or.inr rfl) ?_
    · simpa [ioStart, hb'] using hjb
    · simpa [ioStart] using hw
  exact CrashRun.writing (read := uiSignReadFast f) (sign := fun sk sm l m => (uiSignCallFast P f sk sm l m).map (·.toSignOut))
    (junk := junk) (smlen0 := l0) (m := m) (uiSignReadFast_eq hpp hp pkb _ T hpk hb)
    (by rw [uiSignCallFast_eq, e]; rfl) (rd_some (by simpa using hout)) hio

/-! ### Two authentication paths for one leaf -/

/-- If the root computations from one leaf with two authentication paths agree, then the paths are equal or there is a
collision of the tree hash on the way. -/
theorem climb_auth_collision (S : Rfc.Suite) (pubSeed : Bytes) (layer tree i : Nat) (leaf : Bytes)
    (auth auth' : List Bytes) (hl : auth.length = auth'.length) :
    ∀ K ≤ auth.length, pathNode S pubSeed layer tree i leaf auth K = pathNode S pubSeed layer tree i leaf auth' K →
      (∀ k < K, auth.getD k [] = auth'.getD k []) ∨
        ∃ k < K, TreeCollision S pubSeed (Rfc.Suite.treeAdrs layer tree k (i / 2 ^ (k + 1)))
        (children i k (pathNode S pubSeed layer tree i leaf auth k) (auth.getD k []))
        (children i k (pathNode S pubSeed layer tree i leaf auth' k) (auth'.getD k [])) := by
  intro K
  induction K with
  | zero => intro _ _; exact Or.inl fun k hk => by omega
  | succ K ih =>
    intro hK h
    rw [pathNode_succ _ _ _ _ _ _ _ _ (by omega), pathNode_succ _ _ _ _ _ _ _ _ (by omega)] at h
    by_cases hc : children i K (pathNode S pubSeed layer tree i leaf auth K) (auth.getD K []) =
        children i K (pathNode S pubSeed layer tree i leaf auth' K) (auth'.getD K [])
    · have he : pathNode S pubSeed layer tree i leaf auth K = pathNode S pubSeed layer tree i leaf auth' K ∧
          auth.getD K [] = auth'.getD K [] := by
        unfold children at hc
        split at hc <;> simp only [Prod.mk.injEq] at hc
        · exact hc
        · exact ⟨hc.2, hc.1⟩
      rcases ih (by omega) he.1 with h' | ⟨k, hk, h'⟩
      · left
        intro k hk
        rcases Nat.lt_or_ge k K with h1 | h1
        · exact h' k h1
        · rw [show k = K by omega]; exact he.2
      · exact Or.inr ⟨k, by omega, h'⟩
    · exact Or.inr ⟨K, by omega, hc, h⟩

theorem authPath_getD (S : Rfc.Suite) (sk seed : Bytes) (l t i : Nat) {k : Nat} (hk : k < S.hp) :
    (S.authPath sk seed l t i).getD k [] = S.node sk seed l t k (Rfc.Suite.sibling (i / 2 ^ k)) := by
  simp [Rfc.Suite.authPath, List.getD_eq_getElem?_getD, List.getElem?_range hk]

/-! ### The stale state -/

/-- What would have to be the case for a signature with index `n + 1` that carries the authentication path of leaf `n`,
`n` odd, to verify: two leaves of the tree are equal, or two explicit pairs of nodes on the two paths collide. -/
def StaleAccepted (S : Rfc.Suite) (k : Key) (n : Nat) : Prop :=
  S.leaf k.skSeed k.pubSeed 0 0 (n - 1) = S.leaf k.skSeed k.pubSeed 0 0 (n + 2) ∨
  ∃ h < S.hp, TreeCollision S k.pubSeed (Rfc.Suite.treeAdrs 0 0 h ((n + 1) / 2 ^ (h + 1)))
    (children (n + 1) h
      (pathNode S k.pubSeed 0 0 (n + 1) (S.leaf k.skSeed k.pubSeed 0 0 (n + 1)) (S.authPath k.skSeed k.pubSeed 0 0 n) h)
      (S.node k.skSeed k.pubSeed 0 0 h (Rfc.Suite.sibling (n / 2 ^ h))))
    (children (n + 1) h (S.node k.skSeed k.pubSeed 0 0 h ((n + 1) / 2 ^ h))
      (S.node k.skSeed k.pubSeed 0 0 h (Rfc.Suite.sibling ((n + 1) / 2 ^ h))))

/-- The signature with index `n + 1` in which everything but the authentication path is right. -/
def staleSig (p : Params) (H : Bytes → Bytes) (k : Key) (n : Nat) (m : Bytes) : Bytes :=
  sigHead p H k (n + 1) m ++ ((suiteOf p H).authPath k.skSeed k.pubSeed 0 0 n).flatten

theorem staleSig_length (f : Fast1 p) (hH : ∀ x, (H x).length = p.n) (k : Key) (n : Nat) (m : Bytes) :
    (staleSig p H k n m).length = p.sig_bytes := by
  have g := f.good
  have hsg := g.sig_eq'
  rw [f.d, one_mul] at hsg
  rw [staleSig, List.length_append, sigHead_length g hH, authPath_flat_length g hH]
  have hB : (p.wots_len + p.tree_height) * p.n = p.wots_sig_bytes + p.tree_height * p.n := by rw [g.sig_wots]; ring
  have hs := g.sig_wots
  omega

theorem staleSig_verify (f : Fast1 p) (hH : ∀ x, (H x).length = p.n) {k : Key} (hh : k.Honest (suiteOf p H)) {n : Nat} (hn : n % 2 = 1)
    (hlt : n + 2 < 2 ^ p.full_height) {m : Bytes} (hv : (suiteOf p H).verify k.root k.pubSeed m (staleSig p H k n m)) :
    StaleAccepted (suiteOf p H) k n := by
  have g := f.good
  set S := suiteOf p H with hS
  have hhp : S.hp = p.tree_height := g.hp_eq H
  have hlen : S.len = p.wots_len := g.len_eq' H
  have hnn : S.n = p.n := rfl
  have hd : S.d = 1 := f.d
  have hfull := f.full
  have hlt1 : n + 1 < 2 ^ p.tree_height := by rw [← hfull]; omega
  have hidx : n + 1 < 256 ^ S.idxLen := by
    have := g.idx_fits
    show n + 1 < 256 ^ p.index_bytes
    omega
  rw [Rfc.Suite.verify] at hv
  have l1 : (Rfc.toByte (n + 1) S.idxLen).length = S.idxLen := toByte_length _ _
  have l2 : (S.PRF k.skPrf (Rfc.toByte (n + 1) 32)).length = S.n := hH _
  rw [Rfc.Suite.verifyRoot, staleSig, sigHead] at hv
  simp only [List.append_assoc, ← hS] at hv
  rw [show p.index_bytes = S.idxLen from rfl, List.take_left' l1, List.drop_left' l1, List.take_left' l2, ← List.drop_drop, List.drop_left' l1,
    List.drop_left' l2, toNat_toByte, Nat.mod_eq_of_lt hidx, hd] at hv
  rw [Nat.div_eq_of_lt hlt1, Nat.mod_eq_of_lt hlt1] at hv
  simp only [Rfc.Suite.verifyLayers, hhp, Nat.div_eq_of_lt hlt1, Nat.mod_eq_of_lt hlt1] at hv
  set M := S.digest (S.PRF k.skPrf (Rfc.toByte (n + 1) 32)) k.root (n + 1) m with hM
  have f1 : (S.wotsSig k.skSeed k.pubSeed M 0 0 (n + 1)).flatten.length = S.len * S.n := by
    rw [wotsSig_flat_length g hH, hlen, hnn]
  have b1 := blocks_flatten S.n (S.wotsSig k.skSeed k.pubSeed M 0 0 (n + 1)) ((S.authPath k.skSeed k.pubSeed 0 0 n).flatten)
    (by intro x hx; exact wotsSig_mem_len S hH _ _ _ _ _ _ x hx)
  have b2 := blocks_flatten S.n (S.authPath k.skSeed k.pubSeed 0 0 n) [] (authPath_mem_length g hH _ _ _ _ _)
  rw [show (S.wotsSig k.skSeed k.pubSeed M 0 0 (n + 1)).length = S.len by simp [Rfc.Suite.wotsSig]] at b1
  rw [show (S.authPath k.skSeed k.pubSeed 0 0 n).length = p.tree_height by simp [Rfc.Suite.authPath, hhp], List.append_nil] at b2
  rw [List.drop_left' f1, b1, b2, Rfc.Suite.rootFromSig, wotsPkFromSig_wotsSig S g.w_pos] at hv
  have hroot : k.root = S.treeRoot k.skSeed k.pubSeed 0 0 := by
    have : k.root = S.root k.skSeed k.pubSeed := hh
    rw [this, Rfc.Suite.root, hd]
  have hleaf : S.ltree k.pubSeed 0 0 (n + 1) (S.wotsPk k.skSeed k.pubSeed 0 0 (n + 1)) = S.leaf k.skSeed k.pubSeed 0 0 (n + 1) := rfl
  have hal : ∀ i, (S.authPath k.skSeed k.pubSeed 0 0 i).length = S.hp := fun i => by simp [Rfc.Suite.authPath]
  have hpn := pathNode_honest S k.skSeed k.pubSeed 0 0 (n + 1) S.hp (Nat.le_refl _)
  rw [hleaf, hroot, Rfc.Suite.treeRoot] at hv
  have hcl := climb_auth_collision S k.pubSeed 0 0 (n + 1) (S.leaf k.skSeed k.pubSeed 0 0 (n + 1)) (S.authPath k.skSeed k.pubSeed 0 0 n)
    (S.authPath k.skSeed k.pubSeed 0 0 (n + 1)) (by rw [hal, hal]) S.hp (by rw [hal])
    (by
      rw [hpn, pathNode, List.take_of_length_le (by rw [hal]), hv, hhp, Nat.div_eq_of_lt hlt1])
  rcases hcl with h | ⟨h, hk, hc⟩
  · left
    have h0 := h 0 (by rw [hhp]; have := f.th; omega)
    rw [authPath_getD _ _ _ _ _ _ (by rw [hhp]; have := f.th; omega), authPath_getD _ _ _ _ _ _ (by rw [hhp]; have := f.th; omega),
      pow_zero, Nat.div_one, Nat.div_one, Rfc.Suite.sibling, Rfc.Suite.sibling, if_neg (by omega), if_pos (by omega)] at h0
    exact h0
  · right
    refine ⟨h, hk, ?_⟩
    rw [authPath_getD _ _ _ _ _ _ hk, authPath_getD _ _ _ _ _ _ hk, pathNode_honest _ _ _ _ _ _ _ (by omega)] at hc
    exact hc

/-- The call on a key with index `n + 1` (even) whose traversal state is still that of index `n`. -/
theorem stale_call (f : Fast1 p) (hH : ∀ x, (H x).length = p.n) {k : Key} (hk : k.Valid p) {n : Nat} (hn : n % 2 = 1)
    (hlt : n + 2 < 2 ^ p.full_height) {s : BdsState} (r : Ready p ((suiteOf p H).node k.skSeed k.pubSeed 0 0) [] n s)
    (sm : Bytes) (l0 : Nat) (m : Bytes) (hsm : p.sig_bytes + m.length ≤ sm.length) :
    ∃ s' w, Shape p s' ∧ fastXmssSign H p (k.fast p (n + 1) [s] []) sm l0 m = some
        { ret := 0
          sk := k.fast p (n + 2) [s'] []
          sm := staleSig p H k n m ++ m ++ sm.drop (p.sig_bytes + m.length)
          smlen := p.sig_bytes + m.length
          leaves := w } := by
  have g := f.good
  have hfull := f.full
  have hlt1 : n + 2 < 2 ^ p.tree_height := by rw [← hfull]; exact hlt
  have ctx := treeCtx_suite g hH k.skSeed k.pubSeed 0 0
  have r0 := r.with_leaves 0
  obtain ⟨s', w, q, e⟩ := fastXmssSign_gen f hH hk (idx := n + 1) (by omega) r.shape (Shape p) (fun _ h => h)
    (by
      intro a ha
      have sh0 := r0.shape
      obtain ⟨pr, seg, ti, _, _⟩ := r0
      obtain ⟨s1, e1, sh1, a1, a2, a3, a4, a5, _, _, tau, mm, ht, hth⟩ := bdsRound_safe ctx hH g.th_lt f.k ha (φ := n + 1) sh0 (by omega)
      have htau : tau = 0 := by
        cases tau with
        | zero => rfl
        | succ t => rw [pow_succ] at ht; have : 2 ^ t * 2 * (2 * mm + 1) = 2 * (2 ^ t * (2 * mm + 1)) := by ring
                    omega
      subst htau
      have w1 : WorkInv p ((suiteOf p H).node k.skSeed k.pubSeed 0 0) [] n pr seg s1 :=
        { shape := sh1
          inst := fun i hi => by
            obtain ⟨t, h1, h2⟩ := ti.work.inst i hi
            exact ⟨t, by rw [hth i t h1, if_neg (by omega)], h2⟩
          nested := ti.work.nested
          stack := ⟨by rw [a3]; exact ti.work.stack.off, by rw [a1]; exact ti.work.stack.stack, by rw [a2]; exact ti.work.stack.levels⟩
          base_len := ti.work.base_len
          base_ge := ti.work.base_ge }
      obtain ⟨c, pr', seg', s2, e2, _, w2, _⟩ := bdsTreehashUpdate_eq ctx g.th_lt ha (p.insts / 2) w1
      exact ⟨s1, s2, _, e1, e2, w2.shape⟩) sm l0 m hsm
  refine ⟨s', w, q, ?_⟩
  rw [e]
  obtain ⟨pr, seg, ti, _, _⟩ := r
  have hauth := auth_eq_authPath (H := H) g (s := s) ti.work.shape ti.auth
  rw [hauth, staleSig, sigHead, Nat.div_eq_of_lt (by omega), Nat.mod_eq_of_lt (by omega)]

/-! ### Histories -/

theorem coreSignAllFast_after (f : Fast1 p) (hu : min p.insts (p.tree_height - 2) ≤ 2 * (p.insts / 2))
    (hH : ∀ x, (H x).length = p.n) {k : Key} (hk : k.Valid p) : ∀ (cs : List Call) (n : Nat) (sk : Bytes), After1 p H k n sk →
    (∀ c ∈ cs, p.sig_bytes + c.msg.length ≤ c.sm.length) →
    ∃ os, coreSignAllFast H p sk cs = some os ∧ os.length = cs.length ∧
      ∀ j c, cs[j]? = some c → ∃ o, os[j]? = some o ∧ Post1 p H k (n + j) c o ∧ After1 p H k (n + j + 1) o.sk := by
  intro cs
  induction cs with
  | nil => intro n sk _ _; exact ⟨[], rfl, rfl, by simp⟩
  | cons c cs ih =>
    intro n sk a hs
    obtain ⟨o, e, a', ho⟩ := a.step f hu hH hk c (hs c (by simp))
    obtain ⟨os, e2, hl, hp⟩ := ih (n + 1) o.sk a' fun c' h' => hs c' (by simp [h'])
    refine ⟨o :: os, ?_, by simp [hl], ?_⟩
    · rw [coreSignAllFast, e]
      simp only [Option.bind_eq_bind, Option.bind_some, e2]
    · intro j c' hj
      cases j with
      | zero =>
        rw [List.getElem?_cons_zero] at hj
        cases hj
        exact ⟨o, rfl, ho, a'⟩
      | succ j =>
        rw [List.getElem?_cons_succ] at hj
        obtain ⟨o', h1, h2, h3⟩ := hp j c' hj
        rw [show n + (j + 1) = n + 1 + j by omega]
        exact ⟨o', by simpa using h1, h2, h3⟩

/-- **C57 is false for the tools linked with the fast implementation.**  Take any XMSS key file from the key generation tool
after an odd number `n` of runs of the signing tool (`n + 2` below `2^h`).  The next run can be killed at a moment at which
nothing has left it and the key file contains the new index, but still the old traversal state.  The run after that exits
with 0 and outputs a signed message with index `n + 1` which the verification tool rejects, unless the hash function has an
accidental coincidence inside the tree of this key (`StaleAccepted`). -/
theorem C57_fails_fast (name : String) (hn : Family.xmss.strToOid name = some oid) (hp : parseXmssFast oid = some p)
    (hH : coreHash P p.func p.n = some H) (junk seed : Nat → Bytes) (hj : Fresh junk) (hs : (seed p.n).length = 3 * p.n) :
    ∃ (file : Bytes) (k : Key), uiKeypairFast P .xmss junk seed [name] = some { exit := 0, stdout := file } ∧
      k.Valid p ∧ k.Honest (suiteOf p H) ∧ seed p.n = k.skSeed ++ k.skPrf ++ k.pubSeed ∧
      ∀ ts : List ToolRun, (∀ t ∈ ts, Fresh t.junk) → ts.length % 2 = 1 → ts.length + 2 < 2 ^ p.full_height →
        ∃ rs F, toolRunsFast P .xmss (some file) ts = some rs ∧ rs.getLast?.bind (·.keyFile) = some F ∧
          ∀ (junk1 : Nat → Bytes) (l1 : Nat) (mayFlush : Nat → Prop) (m1 : Bytes), Fresh junk1 →
            ∃ F', CrashRunFast P .xmss junk1 l1 mayFlush F m1 [] F' ∧
              ∀ (junk2 : Nat → Bytes) (l2 : Nat) (m2 : Bytes), Fresh junk2 → p.sig_bytes + m2.length < 2 ^ 64 →
                ∃ out F'', uiSignFast P .xmss junk2 l2 (some F') (some m2) = some { exit := 0, keyFile := some F'', stdout := out } ∧
                  out.length = p.sig_bytes + m2.length ∧ out.take p.index_bytes = Rfc.toByte (ts.length + 1) p.index_bytes ∧
                  out.drop p.sig_bytes = m2 ∧
                  (uiOpenFast P .xmss junk2 (some F') (some out) = some (-1) ∨ StaleAccepted (suiteOf p H) k ts.length) := by
  have f1 := parseFast_fast1 hp
  obtain ⟨g, _, ho, hk0, _, _⟩ := parseFast_good (f := .xmss) hp
  have hu : min p.insts (p.tree_height - 2) ≤ 2 * (p.insts / 2) := by unfold Params.insts; omega
  have hHl : ∀ x, (H x).length = p.n := by
    obtain ⟨H', h, h'⟩ := Family.hashFast (P := P) (f := .xmss) hp
    rw [hH] at h; cases h; exact h'
  have hpkb := g.pk_eq
  have hjp := hj (4 + p.pk_bytes)
  have hjs := hj (4 + p.sk_bytes)
  obtain ⟨a, b, c, e, h1, h2, h3⟩ : ∃ a b c : Bytes, seed p.n = a ++ b ++ c ∧ a.length = p.n ∧ b.length = p.n ∧
      c.length = p.n :=
    ⟨(seed p.n).take p.n, ((seed p.n).drop p.n).take p.n, (seed p.n).drop (p.n + p.n), split3 _ _ _,
      by simp; omega, by simp; omega, by simp; omega⟩
  obtain ⟨k, hv, hh, rfl, rfl, rfl, sk', e', af⟩ := fastXmssKeypair_after f1 hHl ((junk (4 + p.pk_bytes)).drop 4) ((junk (4 + p.sk_bytes)).drop 4) a b c
    (by simp; omega) (by simp; omega) h1 h2 h3
  rw [← e] at e'
  have hkl : (k.root ++ k.pubSeed).length = p.pk_bytes := by simp [hv.root, hv.pubSeed, hpkb]; omega
  have ek : Family.xmss.keypairFast P (junk (4 + p.pk_bytes)) (junk (4 + p.sk_bytes)) oid seed = some (0, k.pk oid, Rfc.toByte oid 4 ++ sk') :=
    apiKeypairFast_eq hp hH (by omega) (by omega) e'
  have hp' : Family.xmss.parseFast oid = some p := hp
  have hfile : uiKeypairFast P .xmss junk seed [name] = some { exit := 0, stdout := k.pk oid ++ (Rfc.toByte oid 4 ++ sk') } := by
    rw [uiKeypairFast]
    simp only [hn, Option.getD_some, uiParseFast_eq, uiKeypairCallFast_eq, hp', show oidLen = 4 from rfl, ek,
      Option.bind_eq_bind, Option.bind_some]
  refine ⟨_, k, hfile, hv, hh, e, ?_⟩
  intro ts hts hodd hlt
  have hskl : sk'.length = p.sk_bytes := by
    rw [After1, if_pos (Nat.two_pow_pos _)] at af
    obtain ⟨s, r, rfl⟩ := af
    exact Key.fast_length f1 hv r.shape
  obtain ⟨os, e2, hl, hp2⟩ := coreSignAllFast_after f1 hu hHl hv
    (ts.map fun t => (⟨t.junk (p.sig_bytes + t.msg.length), t.smlen0, t.msg⟩ : Call)) 0 sk' af
    (by
      intro c hc
      obtain ⟨t, ht, rfl⟩ := List.mem_map.mp hc
      simp only [hts t ht _, le_refl])
  rw [List.length_map] at hl
  have hall := signAllFast_core hp ho hH _ sk' os e2
  have hsl := fun j m => sign_length g hHl k.skSeed k.skPrf k.root k.pubSeed j m
  have hrun := toolRunsFast_eq (P := P) hp' hp' (k.root ++ k.pubSeed) [] hkl ts sk' os hskl
    (by
      intro o ho
      obtain ⟨j, hj, rfl⟩ := List.mem_iff_getElem.mp ho
      obtain ⟨o', ho', po, _⟩ := hp2 j _ (by rw [List.getElem?_map, List.getElem?_eq_getElem (show j < ts.length by omega)]; rfl)
      rw [List.getElem?_eq_getElem hj] at ho'
      cases ho'
      obtain ⟨_, c2, c3, _⟩ := po.ok (by omega)
      refine ⟨po.size, ?_⟩
      rw [c2, c3, List.length_append, List.length_append, hsl]
      omega) hall
  rw [List.append_nil] at hrun
  set n := ts.length with hndef
  -- the last output
  obtain ⟨o, hol, _, hafter⟩ := hp2 (n - 1) _ (by rw [List.getElem?_map, List.getElem?_eq_getElem (show n - 1 < ts.length by omega)]; rfl)
  rw [show 0 + (n - 1) + 1 = n by omega, After1, if_pos (by omega)] at hafter
  obtain ⟨s, r, hsk⟩ := hafter
  refine ⟨_, Rfc.toByte oid 4 ++ (k.root ++ k.pubSeed) ++ (Rfc.toByte oid 4 ++ k.fast p n [s] []) ++ [], hrun, ?_, ?_⟩
  · rw [List.getLast?_map, List.getLast?_eq_getElem?, hl, hol, Option.map_some, Option.bind_some, hsk]
  intro junk1 l1 mayFlush m1 hj1
  have hf4 : ∀ (i : Nat) (s : BdsState), k.fast p i [s] [] = Rfc.toByte i p.index_bytes ++ (k.mat ++ extBytes [s] []) := fun i s => by
    rw [Key.fast, skHead_mat, List.append_assoc]
  -- the run that is killed
  obtain ⟨s1, w1, r1, _, c1⟩ := fastXmssSign_step f1 hu hHl hv (idx := n) (by omega) r (junk1 (p.sig_bytes + m1.length)) l1 m1 (by rw [hj1])
  have c1' : Family.xmss.signFast P (Rfc.toByte oid 4 ++ k.fast p n [s] []) (junk1 (p.sig_bytes + m1.length)) l1 m1 = _ :=
    apiSignFast_eq hp ho hH c1
  have hib : p.index_bytes = 4 := f1.ib
  have hcr := crash_exists_fast (P := P) (f := .xmss) hp' hp' (junk := junk1) (pkb := k.root ++ k.pubSeed) (T := []) (m := m1) hkl
    (Key.fast_length f1 hv r.shape) (body' := k.fast p (n + 1) [s1] []) (Key.fast_length f1 hv r1.shape) mayFlush l1 c1'
    (by simp only [List.length_append, hsl]; omega) (j := p.index_bytes) (by omega) (by rw [f1.sk, fastSkBytes]; omega)
  rw [show (k.fast p (n + 1) [s1] []).take p.index_bytes ++ (k.fast p n [s] []).drop p.index_bytes = k.fast p (n + 1) [s] [] by
    rw [hf4, hf4, hf4, List.take_left' (toByte_length _ _), List.drop_left' (toByte_length _ _)]] at hcr
  refine ⟨_, hcr, ?_⟩
  intro junk2 l2 m2 hj2 h64
  -- the next run
  obtain ⟨s2, w2, sh2, c2⟩ := stale_call f1 hHl hv hodd hlt r (junk2 (p.sig_bytes + m2.length)) l2 m2 (by rw [hj2])
  have c2' : Family.xmss.signFast P (Rfc.toByte oid 4 ++ k.fast p (n + 1) [s] []) (junk2 (p.sig_bytes + m2.length)) l2 m2 = _ :=
    apiSignFast_eq hp ho hH c2
  have hst := staleSig_length f1 hHl k n m2
  have hrun2 := uiSignFast_eq (P := P) hp' hp' junk2 l2 (k.root ++ k.pubSeed) (k.fast p (n + 1) [s] []) [] m2 hkl
    (Key.fast_length f1 hv r.shape) (Key.fast_length f1 hv sh2) c2'
  rw [if_pos (by simp only [List.length_append, hst]; omega), List.drop_of_length_le (by rw [hj2])] at hrun2
  simp only [List.append_nil] at hrun2
  rw [List.take_of_length_le (by rw [List.length_append, hst])] at hrun2
  refine ⟨_, _, by rw [List.append_nil (Rfc.toByte oid 4 ++ (k.root ++ k.pubSeed) ++ _)]; exact hrun2, by rw [List.length_append, hst], ?_, List.drop_left' hst, ?_⟩
  · rw [staleSig, sigHead]
    simp only [List.append_assoc]
    exact List.take_left' (toByte_length _ _)
  -- parameters of the simple build
  obtain ⟨ps, hps⟩ : ∃ ps, Family.xmss.parse oid = some ps := by
    apply Option.isSome_iff_exists.mp
    show (xmssParseOid slowSkBytes oid).isSome
    rw [C02_xmss_oids slowSkBytes oid, ← C02_xmss_oids fastSkBytes oid,
      show xmssParseOid fastSkBytes oid = some p from hp]; rfl
  obtain ⟨pf', hpf', ee⟩ := parse_both hps
  rw [hp'] at hpf'
  cases hpf'
  have hHs : coreHash P ps.func ps.n = some H := by rw [ee] at hH; exact hH
  have hS : suiteOf p H = suiteOf ps H := by rw [ee]; rfl
  have en : p.n = ps.n := by rw [ee]
  have esig : p.sig_bytes = ps.sig_bytes := by rw [ee]
  obtain ⟨st, hopen, hor, hiff⟩ := C44_exit_status hps hHs junk2 hj2 k (by rw [← en]; exact hv.root) (by rw [← en]; exact hv.pubSeed)
    (Rfc.toByte oid 4 ++ k.fast p (n + 1) [s] [] ++ []) (staleSig p H k n m2) m2 (by rw [← esig]; exact hst) (by rw [← esig]; exact h64)
  rcases hor with h | h
  · right
    exact staleSig_verify f1 hHl hh hodd hlt (by rw [hS]; exact hiff.mp h)
  · left
    rw [uiOpenFast_eq, ← h, ← hopen]
    simp only [Key.pk, List.append_assoc, List.append_nil]

-- Non-vacuity: XMSS-SHA2_10_256 after one run.
example : ∃ oid p, Family.xmss.strToOid "XMSS-SHA2_10_256" = some oid ∧ parseXmssFast oid = some p ∧ 1 + 2 < 2 ^ p.full_height :=
  ⟨1, _, rfl, rfl, by decide⟩

end Xmss
