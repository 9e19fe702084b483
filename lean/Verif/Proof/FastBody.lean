import Verif.Proof.FastState
/-
The parts of the fast signing functions that do not depend on the traversal: the message hash and the output buffer.
-/
namespace Xmss

variable {H : Bytes → Bytes} {p : Params}

theorem wr_mid {buf y bs : Bytes} (x z : Bytes) {off : Nat} (hb : buf = x ++ y ++ z) (ho : off = x.length)
    (hl : bs.length = y.length) : wr buf off bs = some (x ++ bs ++ z) := by
  rw [hb]; exact wr_append x y z bs ho hl

/-- The first `N` bytes of `buf` are to be overwritten, `done` has been written; behind them is `rest`. -/
def Fill (N : Nat) (done rest buf : Bytes) : Prop := ∃ rem, buf = done ++ rem ++ rest ∧ done.length + rem.length = N

theorem Fill.wr {N : Nat} {done rest buf x : Bytes} (h : Fill N done rest buf) (hx : done.length + x.length ≤ N)
    {off : Nat} (ho : off = done.length) : ∃ buf', wr buf off x = some buf' ∧ Fill N (done ++ x) rest buf' := by
  obtain ⟨rem, rfl, hl⟩ := h
  refine ⟨_, wr_mid (y := rem.take x.length) done (rem.drop x.length ++ rest) ?_ ho ?_, rem.drop x.length, ?_, ?_⟩
  · rw [List.append_assoc done (rem.take _), ← List.append_assoc (rem.take _), List.take_append_drop, List.append_assoc]
  · simp; omega
  · simp
  · simp; omega

theorem Fill.full {N : Nat} {done rest buf : Bytes} (h : Fill N done rest buf) (hd : done.length = N) : buf = done ++ rest := by
  obtain ⟨rem, rfl, hl⟩ := h
  have : rem = [] := List.eq_nil_of_length_eq_zero (by omega)
  simp [this]

/-- Preparation of the message hash: the message is copied behind the signature, the prefix in front of it. -/
theorem hashPhase (g : p.Good) {R root sm0 old post m : Bytes} (hR : R.length = p.n) (hroot : root.length = p.n)
    (hsm : sm0.length = p.sig_bytes) (hold : old.length = m.length) (idx : Nat) :
    ∃ sm1 sm2, wr (sm0 ++ old ++ post) p.sig_bytes m = some sm1 ∧
      hashMessage H p R root idx sm1 (p.sig_bytes - p.padding_len - 3 * p.n) m.length =
        some ((suiteOf p H).digest R root idx m, sm2) ∧ Fill p.sig_bytes [] (m ++ post) sm2 := by
  have hfit := g.prefix_fits
  obtain ⟨c, d, rfl, hc, hd⟩ : ∃ c d : Bytes, sm0 = c ++ d ∧ c.length = p.sig_bytes - p.padding_len - 3 * p.n ∧
      d.length = p.padding_len + 3 * p.n :=
    ⟨_, _, (List.take_append_drop (p.sig_bytes - p.padding_len - 3 * p.n) sm0).symm, by simp; omega, by simp; omega⟩
  refine ⟨_, _, wr_append (c ++ d) old post m hsm.symm hold.symm,
    hashMessage_eq R root hR hroot idx c d m post hd hc.symm rfl,
    c ++ (Rfc.toByte 2 p.padding_len ++ R ++ root ++ Rfc.toByte idx p.n), ?_, ?_⟩
  · simp
  · simp only [List.length_nil, List.length_append, toByte_length, hR, hroot] at *
    omega

/-- Secret key, from index to public seed. -/
def skHead (ib skSeed skPrf root pubSeed : Bytes) : Bytes := ib ++ skSeed ++ skPrf ++ root ++ pubSeed

theorem skHead_length {ib skSeed skPrf root pubSeed : Bytes} (hib : ib.length = p.index_bytes)
    (h1 : skSeed.length = p.n) (h2 : skPrf.length = p.n) (h3 : root.length = p.n) (h4 : pubSeed.length = p.n) :
    (skHead ib skSeed skPrf root pubSeed).length = p.index_bytes + 4 * p.n := by
  simp [skHead, hib, h1, h2, h3, h4]; omega

/-- Reads of and write to the regular part of the secret key in a sign function. -/
theorem skPhase {ib skSeed skPrf root pubSeed : Bytes} (y : Bytes) (hib : ib.length = p.index_bytes)
    (h1 : skSeed.length = p.n) (h2 : skPrf.length = p.n) (h3 : root.length = p.n) (h4 : pubSeed.length = p.n) (idx : Nat) :
    rd (skHead ib skSeed skPrf root pubSeed ++ y) 0 p.index_bytes = some ib ∧
    rd (skHead ib skSeed skPrf root pubSeed ++ y) p.index_bytes p.n = some skSeed ∧
    rd (skHead ib skSeed skPrf root pubSeed ++ y) (p.index_bytes + p.n) p.n = some skPrf ∧
    rd (skHead ib skSeed skPrf root pubSeed ++ y) (p.index_bytes + 2 * p.n) p.n = some root ∧
    rd (skHead ib skSeed skPrf root pubSeed ++ y) (p.index_bytes + 3 * p.n) p.n = some pubSeed ∧
    wr (skHead ib skSeed skPrf root pubSeed ++ y) 0 (ullToBytes p.index_bytes idx) =
      some (skHead (Rfc.toByte idx p.index_bytes) skSeed skPrf root pubSeed ++ y) := by
  refine ⟨?_, ?_, ?_, ?_, ?_, ?_⟩
  · exact rd_mid [] (skSeed ++ skPrf ++ root ++ pubSeed ++ y) (by simp [skHead]) rfl hib.symm
  · exact rd_mid ib (skPrf ++ root ++ pubSeed ++ y) (by simp [skHead]) hib.symm h1.symm
  · exact rd_mid (ib ++ skSeed) (root ++ pubSeed ++ y) (by simp [skHead]) (by simp [hib, h1]) h2.symm
  · exact rd_mid (ib ++ skSeed ++ skPrf) (pubSeed ++ y) (by simp [skHead]) (by simp [hib, h1, h2]; omega) h3.symm
  · exact rd_mid (ib ++ skSeed ++ skPrf ++ root) y (by simp [skHead]) (by simp [hib, h1, h2, h3]; omega) h4.symm
  · rw [wr_mid (buf := skHead ib skSeed skPrf root pubSeed ++ y) (y := ib) (off := 0) [] (skSeed ++ skPrf ++ root ++ pubSeed ++ y) (by simp [skHead]) rfl
      (by rw [ullToBytes_length, hib]), ullToBytes_eq]
    simp [skHead]

/-- Stored signatures and authentication paths of the layers `i .. i + k - 1`. -/
def storedLayers (states : List BdsState) (sigs : List Bytes) : Nat → Nat → Bytes
  | 0, _ => []
  | k + 1, i => (sigs.getD (i - 1) []) ++ (states.getD i default).auth.flatten ++ storedLayers states sigs k (i + 1)

theorem Shape.auth_flat {s : BdsState} (h : Shape p s) : s.auth.flatten.length = p.tree_height * p.n := by
  rw [flatten_length_of h.auth_mem, h.auth_len]

theorem storedLayers_length {states : List BdsState} {sigs : List Bytes} (h : ExtShape p states sigs) :
    ∀ k i, 1 ≤ i → i + k ≤ p.d → (storedLayers states sigs k i).length = k * (p.wots_sig_bytes + p.tree_height * p.n) := by
  have h1 := h.states_len
  have h2 := h.sigs_len
  intro k
  induction k with
  | zero => intro i _ _; simp [storedLayers]
  | succ k ih =>
    intro i hi hk
    have e1 : (sigs.getD (i - 1) []).length = p.wots_sig_bytes := by
      rw [List.getD_eq_getElem?_getD, List.getElem?_eq_getElem (show i - 1 < sigs.length by omega)]
      exact h.sigs_mem _ (List.getElem_mem _)
    have e2 : (states.getD i default).auth.flatten.length = p.tree_height * p.n := by
      rw [List.getD_eq_getElem?_getD, List.getElem?_eq_getElem (show i < states.length by omega)]
      exact (h.states_mem _ (List.getElem_mem _)).auth_flat
    rw [storedLayers, List.length_append, List.length_append, e1, e2, ih (i + 1) (by omega) (by omega)]
    ring

theorem mtCopyLoop_eq {states : List BdsState} {sigs : List Bytes} (h : ExtShape p states sigs) :
    ∀ (k i : Nat) (done rest sm : Bytes) (N off : Nat), 1 ≤ i → i + k ≤ p.d → Fill N done rest sm → off = done.length →
      done.length + k * (p.wots_sig_bytes + p.tree_height * p.n) ≤ N →
      ∃ sm', mtCopyLoop p states sigs k i sm off = some (sm', off + k * (p.wots_sig_bytes + p.tree_height * p.n)) ∧
        Fill N (done ++ storedLayers states sigs k i) rest sm' := by
  have h1 := h.states_len
  have h2 := h.sigs_len
  intro k
  induction k with
  | zero => intro i done rest sm N off _ _ hf _ _; exact ⟨sm, by simp [mtCopyLoop], by simpa [storedLayers] using hf⟩
  | succ k ih =>
    intro i done rest sm N off hi hk hf ho hN
    have hi1 : i - 1 < sigs.length := by omega
    have hi2 : i < states.length := by omega
    have e1 : sigs[i - 1].length = p.wots_sig_bytes := h.sigs_mem _ (List.getElem_mem _)
    have e2 : states[i].auth.flatten.length = p.tree_height * p.n := (h.states_mem _ (List.getElem_mem _)).auth_flat
    have hN' : done.length + p.wots_sig_bytes + p.tree_height * p.n + k * (p.wots_sig_bytes + p.tree_height * p.n) ≤ N := by
      have : (k + 1) * (p.wots_sig_bytes + p.tree_height * p.n) =
        p.wots_sig_bytes + p.tree_height * p.n + k * (p.wots_sig_bytes + p.tree_height * p.n) := by ring
      omega
    obtain ⟨b1, w1, f1⟩ := hf.wr (x := sigs[i - 1]) (by omega) ho
    obtain ⟨b2, w2, f2⟩ := f1.wr (x := states[i].auth.flatten) (off := off + p.wots_sig_bytes)
      (by rw [List.length_append]; omega) (by rw [List.length_append]; omega)
    obtain ⟨b3, w3, f3⟩ := ih (i + 1) _ rest b2 N (off + p.wots_sig_bytes + p.tree_height * p.n) (by omega) (by omega) f2
      (by rw [List.length_append, List.length_append]; omega)
      (by rw [List.length_append, List.length_append]; omega)
    refine ⟨b3, ?_, ?_⟩
    · rw [mtCopyLoop]
      simp only [Option.bind_eq_bind, List.getElem?_eq_getElem hi1, List.getElem?_eq_getElem hi2, Option.bind_some, w1, w2]
      rw [w3]
      simp only [Option.some.injEq, Prod.mk.injEq, true_and]
      ring
    · have e : storedLayers states sigs (k + 1) i = sigs[i - 1] ++ states[i].auth.flatten ++ storedLayers states sigs k (i + 1) := by
        rw [storedLayers, List.getD_eq_getElem?_getD, List.getElem?_eq_getElem hi1, List.getD_eq_getElem?_getD,
          List.getElem?_eq_getElem hi2]
        rfl
      rw [e]
      simpa [List.append_assoc] using f3

/-- The traversal part of `xmss_core_sign`: xmss_core_fast.c:705-708. -/
def xmssTraverse (H : Bytes → Bytes) (p : Params) (skSeed pubSeed : Bytes) (idx : Nat) (s : BdsState) (a : Addr) : Option BdsState :=
  if idx < (1 <<< p.tree_height) - 1 then do
    let s ← bdsRound H p s idx skSeed pubSeed a
    let r ← bdsTreehashUpdate H p s (p.insts >>> 1) skSeed pubSeed a
    some r.1
  else some s

/-- `xmss_core_sign` behind the exhaustion check, in terms of the traversal. -/
theorem fastXmssSignBody_bind (g : p.Good) (hH : ∀ x, (H x).length = p.n) (hd : p.d = 1) (hI : p.index_bytes = 4)
    {ib skSeed skPrf root pubSeed y z sm0 old post m : Bytes} {s : BdsState} {idx : Nat}
    (hib : ib.length = p.index_bytes) (h1 : skSeed.length = p.n) (h2 : skPrf.length = p.n)
    (h3 : root.length = p.n) (h4 : pubSeed.length = p.n) (hy : y.length = bdsStateBytes p)
    (hsm : sm0.length = p.sig_bytes) (hold : old.length = m.length) (hal : s.auth.flatten.length = p.tree_height * p.n) :
    ∃ a, (a = (wotsSign H p ((suiteOf p H).digest ((suiteOf p H).PRF skPrf (Rfc.toByte idx 32)) root idx m) skSeed pubSeed
        (setOtsAddr (setType Addr.zero typeOts) idx)).2 ∧ IsSub a 0 0) ∧ ((∀ s', xmssTraverse H p skSeed pubSeed idx s a = some s' → (stateBytes s').length = bdsStateBytes p) →
      fastXmssSignBody H p (skHead ib skSeed skPrf root pubSeed ++ y ++ z) (sm0 ++ old ++ post) m s [] idx =
      (xmssTraverse H p skSeed pubSeed idx s a).map fun s' =>
           { ret := 0
             sk := skHead (Rfc.toByte (idx + 1) p.index_bytes) skSeed skPrf root pubSeed ++ extBytes [s'] [] ++ z
             sm := Rfc.toByte idx p.index_bytes ++ (suiteOf p H).PRF skPrf (Rfc.toByte idx 32) ++
               ((suiteOf p H).wotsSig skSeed pubSeed ((suiteOf p H).digest ((suiteOf p H).PRF skPrf (Rfc.toByte idx 32)) root
                 idx m) 0 0 idx).flatten ++ s.auth.flatten ++ m ++ post
             smlen := p.sig_bytes + m.length
             leaves := s'.leaves }) := by
  have hfit := g.prefix_fits
  have hsig := g.sig_eq'
  rw [hd, one_mul, Nat.add_mul] at hsig
  have hsw := g.sig_wots
  rw [List.append_assoc]
  obtain ⟨-, r1, r2, -, r4, w0⟩ := skPhase (p := p) (y ++ z) hib h1 h2 h3 h4 (idx + 1)
  obtain ⟨-, -, -, r3, -, -⟩ := skPhase (p := p) (y ++ z) (toByte_length (idx + 1) p.index_bytes) h1 h2 h3 h4 (idx + 1)
  set R := (suiteOf p H).PRF skPrf (Rfc.toByte idx 32) with hR
  have hRl : R.length = p.n := hH _
  have eR : prf H p (ullToBytes 32 idx) skPrf = R := by rw [prf_eq, ullToBytes_eq]
  obtain ⟨sm1, sm2, e1, e2, f2⟩ := hashPhase (H := H) (R := R) (post := post) (m := m) g hRl h3 hsm hold idx
  set M := (suiteOf p H).digest R root idx m with hM
  have hMl : M.length = p.n := hH _
  obtain ⟨w1, w2⟩ := wotsSign_eq (H := H) g (layer := 0) (tree := 0) (ots := idx) skSeed pubSeed hMl
      (setOtsAddr (setType Addr.zero typeOts) idx) ⟨rfl, rfl, rfl, rfl, rfl⟩
  set W := wotsSign H p M skSeed pubSeed (setOtsAddr (setType Addr.zero typeOts) idx) with hW
  have hwl : W.1.flatten.length = p.wots_len * p.n := by rw [w1]; exact wotsSig_flat_length g hH skSeed pubSeed M 0 0 idx
  refine ⟨W.2, ⟨rfl, w2.h0, w2.h1, w2.h2⟩, fun hlen => ?_⟩
  obtain ⟨b3, e3, f3⟩ := f2.wr (x := Rfc.toByte idx p.index_bytes) (off := 0)
    (by rw [toByte_length, List.length_nil]; omega) rfl
  obtain ⟨b4, e4, f4⟩ := f3.wr (x := R) (off := 4) (by simp only [List.length_append, toByte_length, List.length_nil]; omega)
    (by simp only [List.length_append, toByte_length, List.length_nil]; omega)
  obtain ⟨b5, e5, f5⟩ := f4.wr (x := W.1.flatten) (off := 4 + p.n)
    (by simp only [List.length_append, toByte_length, List.length_nil]; omega)
    (by simp only [List.length_append, toByte_length, List.length_nil]; omega)
  obtain ⟨b6, e6, f6⟩ := f5.wr (x := s.auth.flatten) (off := 4 + p.n + p.wots_sig_bytes)
    (by simp only [List.length_append, toByte_length, List.length_nil]; omega)
    (by simp only [List.length_append, toByte_length, List.length_nil]; omega)
  have hb6 := f6.full (by simp only [List.length_append, toByte_length, List.length_nil]; omega)
  have e7 : wr b6 (4 + p.n + p.wots_sig_bytes + p.tree_height * p.n) m = some b6 := by
    rw [wr_mid (y := m) _ post (by rw [hb6, List.append_assoc _ m post])
      (by simp only [List.length_append, toByte_length, List.length_nil]; omega) rfl, hb6]
    simp only [List.append_assoc]
  have w0' : wr (skHead ib skSeed skPrf root pubSeed ++ (y ++ z)) 0 (ullToBytes 4 (idx + 1)) =
      some (skHead (Rfc.toByte (idx + 1) p.index_bytes) skSeed skPrf root pubSeed ++ (y ++ z)) := by
    rw [← hI]; exact w0
  have e3' : wr sm2 0 (ullToBytes 4 idx) = some b3 := by rw [ullToBytes_eq, ← hI]; exact e3
  rw [fastXmssSignBody]
  simp only [Option.bind_eq_bind, r1, r2, r4, Option.bind_some, w0', eR, e1, r3]
  rw [if_neg (by omega)]
  simp only [e2, Option.bind_some, e3', e4, ← hW, e5, e6]
  have hfold : (if idx < (1 <<< p.tree_height) - 1 then
      (bdsRound H p s idx skSeed pubSeed W.2).bind fun s =>
        (bdsTreehashUpdate H p s (p.insts >>> 1) skSeed pubSeed W.2).bind fun r => some r.1
      else some s) = xmssTraverse H p skSeed pubSeed idx s W.2 := rfl
  rw [hfold]
  cases hT : xmssTraverse H p skSeed pubSeed idx s W.2 with
  | none => rfl
  | some s' =>
  have hbds : (extBytes [s'] []).length = bdsStateBytes p := by
    simp only [extBytes, List.map_cons, List.map_nil, List.flatten_cons, List.flatten_nil, List.append_nil]
    exact hlen s' hT
  have e8 := serialize_eq (p := p) (states := [s']) (sigs := []) (skHead (Rfc.toByte (idx + 1) p.index_bytes) skSeed skPrf root pubSeed) y z
    (skHead_length (toByte_length _ _) h1 h2 h3 h4) (by rw [hbds, hy])
  rw [List.append_assoc] at e8
  simp only [Option.bind_some, e7, e8, Option.map_some, Option.some.injEq, FastOut.mk.injEq, SignOut.mk.injEq, true_and, and_true]
  refine ⟨?_, ?_⟩
  · rw [hb6, ← w1]
    simp only [List.append_assoc, List.nil_append]
  · omega

/-- `xmss_core_sign` behind the exhaustion check. -/
theorem fastXmssSignBody_eq (g : p.Good) (hH : ∀ x, (H x).length = p.n) (hd : p.d = 1) (hI : p.index_bytes = 4)
    {ib skSeed skPrf root pubSeed y z sm0 old post m : Bytes} {s : BdsState} {idx : Nat}
    (hib : ib.length = p.index_bytes) (h1 : skSeed.length = p.n) (h2 : skPrf.length = p.n)
    (h3 : root.length = p.n) (h4 : pubSeed.length = p.n) (hy : y.length = bdsStateBytes p)
    (hsm : sm0.length = p.sig_bytes) (hold : old.length = m.length) (sh : Shape p s) (Q : BdsState → Prop)
    (hQ : ∀ s', Q s' → Shape p s')
    (hs : ∀ a, IsSub a 0 0 → ∃ s', (if idx < (1 <<< p.tree_height) - 1 then do
        let s ← bdsRound H p s idx skSeed pubSeed a
        let r ← bdsTreehashUpdate H p s (p.insts >>> 1) skSeed pubSeed a
        some r.1
      else some s : Option BdsState) = some s' ∧ Q s') :
    ∃ s', Q s' ∧
      fastXmssSignBody H p (skHead ib skSeed skPrf root pubSeed ++ y ++ z) (sm0 ++ old ++ post) m s [] idx =
      some { ret := 0
             sk := skHead (Rfc.toByte (idx + 1) p.index_bytes) skSeed skPrf root pubSeed ++ extBytes [s'] [] ++ z
             sm := Rfc.toByte idx p.index_bytes ++ (suiteOf p H).PRF skPrf (Rfc.toByte idx 32) ++
               ((suiteOf p H).wotsSig skSeed pubSeed ((suiteOf p H).digest ((suiteOf p H).PRF skPrf (Rfc.toByte idx 32)) root
                 idx m) 0 0 idx).flatten ++ s.auth.flatten ++ m ++ post
             smlen := p.sig_bytes + m.length
             leaves := s'.leaves } := by
  obtain ⟨a, ⟨-, ha⟩, hb⟩ := fastXmssSignBody_bind (H := H) (s := s) (idx := idx) (y := y) (z := z) (m := m) (post := post) g hH hd hI
    hib h1 h2 h3 h4 hy hsm hold sh.auth_flat
  obtain ⟨s', e, q⟩ := hs a ha
  refine ⟨s', q, ?_⟩
  have e' : xmssTraverse H p skSeed pubSeed idx s a = some s' := e
  rw [hb (fun s'' h => by rw [e', Option.some.injEq] at h; subst h; exact stateBytes_length (hQ _ q)), e', Option.map_some]

/-- The traversal part of `xmssmt_core_sign`: xmss_core_fast.c:929-979. -/
def mtTraverse (H : Bytes → Bytes) (p : Params) (skSeed pubSeed : Bytes) (idx : Nat) (states : List BdsState)
    (sigs : List Bytes) (oa : Addr) : Option MtLocals := do
  let addr := setTreeAddr Addr.zero ((idx >>> p.tree_height) + 1)
  let states ← (if (1 + idx >>> p.tree_height) * (1 <<< p.tree_height) + (idx &&& ((1 <<< p.tree_height) - 1)) <
      2 ^ p.full_height then do
      let next ← states[p.d]?
      let next ← bdsStateUpdate H p next skSeed pubSeed addr
      some (states.set p.d next)
    else some states : Option (List BdsState))
  mtLoop H p skSeed pubSeed idx p.d 0
    { states := states, sigs := sigs, updates := p.insts >>> 1, swap := 0, addr := addr, otsAddr := oa }

/-- `xmssmt_core_sign` behind the exhaustion check, in terms of the traversal. -/
theorem fastXmssmtSignBody_bind (g : p.Good) (hH : ∀ x, (H x).length = p.n)
    {ib skSeed skPrf root pubSeed y z sm0 old post m : Bytes} {states : List BdsState} {sigs : List Bytes} {idx : Nat}
    (hib : ib.length = p.index_bytes) (h1 : skSeed.length = p.n) (h2 : skPrf.length = p.n)
    (h3 : root.length = p.n) (h4 : pubSeed.length = p.n)
    (hy : y.length = (2 * p.d - 1) * bdsStateBytes p + (p.d - 1) * p.wots_sig_bytes)
    (hsm : sm0.length = p.sig_bytes) (hold : old.length = m.length) (sh : ExtShape p states sigs) :
    ∃ oa, (oa = (wotsSign H p ((suiteOf p H).digest ((suiteOf p H).PRF skPrf (Rfc.toByte idx 32)) root idx m) skSeed pubSeed
        (setOtsAddr (setTreeAddr (setLayerAddr (setType Addr.zero typeOts) 0) (idx / 2 ^ p.tree_height)) (idx % 2 ^ p.tree_height))).2 ∧
      IsOts oa 0 (idx / 2 ^ p.tree_height) (idx % 2 ^ p.tree_height)) ∧
      ((∀ v, mtTraverse H p skSeed pubSeed idx states sigs oa = some v →
        (extBytes v.states v.sigs).length = (2 * p.d - 1) * bdsStateBytes p + (p.d - 1) * p.wots_sig_bytes) →
      fastXmssmtSignBody H p (skHead ib skSeed skPrf root pubSeed ++ y ++ z) (sm0 ++ old ++ post) m states sigs idx =
      (mtTraverse H p skSeed pubSeed idx states sigs oa).map fun v =>
           { ret := 0
             sk := skHead (Rfc.toByte (idx + 1) p.index_bytes) skSeed skPrf root pubSeed ++ extBytes v.states v.sigs ++ z
             sm := Rfc.toByte idx p.index_bytes ++ (suiteOf p H).PRF skPrf (Rfc.toByte idx 32) ++
               ((suiteOf p H).wotsSig skSeed pubSeed ((suiteOf p H).digest ((suiteOf p H).PRF skPrf (Rfc.toByte idx 32)) root
                 idx m) 0 (idx / 2 ^ p.tree_height) (idx % 2 ^ p.tree_height)).flatten ++
               (states.getD 0 default).auth.flatten ++ storedLayers states sigs (p.d - 1) 1 ++ m ++ post
             smlen := p.sig_bytes + m.length
             leaves := totalLeaves v.states }) := by
  have hfit := g.prefix_fits
  have hsig := g.sig_eq'
  have hdpos := g.d_pos
  have hsw := g.sig_wots
  have hB : (p.wots_len + p.tree_height) * p.n = p.wots_sig_bytes + p.tree_height * p.n := by rw [hsw]; ring
  rw [hB] at hsig
  have hdB : p.d * (p.wots_sig_bytes + p.tree_height * p.n) =
      p.wots_sig_bytes + p.tree_height * p.n + (p.d - 1) * (p.wots_sig_bytes + p.tree_height * p.n) := by
    obtain ⟨k, hk⟩ : ∃ k, p.d = k + 1 := ⟨p.d - 1, by omega⟩
    rw [hk, Nat.add_sub_cancel]; ring
  rw [hdB] at hsig
  rw [List.append_assoc]
  obtain ⟨-, r1, r2, -, r4, w0⟩ := skPhase (p := p) (y ++ z) hib h1 h2 h3 h4 (idx + 1)
  obtain ⟨-, -, -, r3, -, -⟩ := skPhase (p := p) (y ++ z) (toByte_length (idx + 1) p.index_bytes) h1 h2 h3 h4 (idx + 1)
  set R := (suiteOf p H).PRF skPrf (Rfc.toByte idx 32) with hR
  have hRl : R.length = p.n := hH _
  have eR : prf H p (ullToBytes 32 idx) skPrf = R := by rw [prf_eq, ullToBytes_eq]
  obtain ⟨sm1, sm2, e1, e2, f2⟩ := hashPhase (H := H) (R := R) (post := post) (m := m) g hRl h3 hsm hold idx
  set M := (suiteOf p H).digest R root idx m with hM
  have hMl : M.length = p.n := hH _
  have hleaf : idx &&& ((1 <<< p.tree_height) - 1) = idx % 2 ^ p.tree_height := by
    rw [Nat.one_shiftLeft, Nat.and_two_pow_sub_one_eq_mod]
  have htree : idx >>> p.tree_height = idx / 2 ^ p.tree_height := Nat.shiftRight_eq_div_pow _ _
  obtain ⟨w1, w2⟩ := wotsSign_eq (H := H) g (layer := 0) (tree := idx / 2 ^ p.tree_height) (ots := idx % 2 ^ p.tree_height)
      skSeed pubSeed hMl
      (setOtsAddr (setTreeAddr (setLayerAddr (setType Addr.zero typeOts) 0) (idx / 2 ^ p.tree_height)) (idx % 2 ^ p.tree_height))
      ⟨rfl, rfl, rfl, rfl, rfl⟩
  set W := wotsSign H p M skSeed pubSeed
    (setOtsAddr (setTreeAddr (setLayerAddr (setType Addr.zero typeOts) 0) (idx / 2 ^ p.tree_height)) (idx % 2 ^ p.tree_height)) with hW
  have hwl : W.1.flatten.length = p.wots_len * p.n := by
    rw [w1]; exact wotsSig_flat_length g hH skSeed pubSeed M 0 _ _
  have hst0 : 0 < states.length := by have := sh.states_len; omega
  have hal := (sh.states_mem _ (List.getElem_mem hst0)).auth_flat
  have e0 : states.getD 0 default = states[0] := by
    rw [List.getD_eq_getElem?_getD, List.getElem?_eq_getElem hst0]; rfl
  refine ⟨W.2, ⟨rfl, w2⟩, fun hlen => ?_⟩
  obtain ⟨b3, e3, f3⟩ := f2.wr (x := Rfc.toByte idx p.index_bytes) (off := 0)
    (by rw [toByte_length, List.length_nil]; omega) rfl
  obtain ⟨b4, e4, f4⟩ := f3.wr (x := R) (off := p.index_bytes) (by simp only [List.length_append, toByte_length, List.length_nil]; omega)
    (by simp only [List.length_append, toByte_length, List.length_nil]; omega)
  obtain ⟨b5, e5, f5⟩ := f4.wr (x := W.1.flatten) (off := p.index_bytes + p.n)
    (by simp only [List.length_append, toByte_length, List.length_nil]; omega)
    (by simp only [List.length_append, toByte_length, List.length_nil]; omega)
  obtain ⟨b6, e6, f6⟩ := f5.wr (x := states[0].auth.flatten) (off := p.index_bytes + p.n + p.wots_sig_bytes)
    (by simp only [List.length_append, toByte_length, List.length_nil]; omega)
    (by simp only [List.length_append, toByte_length, List.length_nil]; omega)
  obtain ⟨b7, e7, f7⟩ := mtCopyLoop_eq sh (p.d - 1) 1 _ _ b6 p.sig_bytes
    (p.index_bytes + p.n + p.wots_sig_bytes + p.tree_height * p.n) (Nat.le_refl _) (by omega) f6
    (by simp only [List.length_append, toByte_length, List.length_nil]; omega)
    (by simp only [List.length_append, toByte_length, List.length_nil]; omega)
  have hsl := storedLayers_length sh (p.d - 1) 1 (Nat.le_refl _) (by omega)
  have hb7 := f7.full (by simp only [List.length_append, toByte_length, List.length_nil]; omega)
  set off := p.index_bytes + p.n + p.wots_sig_bytes + p.tree_height * p.n +
    (p.d - 1) * (p.wots_sig_bytes + p.tree_height * p.n) with hoff
  have hoff' : off = p.sig_bytes := by omega
  have e8 : wr b7 off m = some b7 := by
    rw [wr_mid (y := m) _ post (by rw [hb7, List.append_assoc _ m post])
      (by simp only [List.length_append, toByte_length, List.length_nil]; omega) rfl, hb7]
    simp only [List.append_assoc]
  have e3' : wr sm2 0 (ullToBytes p.index_bytes idx) = some b3 := by rw [ullToBytes_eq]; exact e3
  rw [fastXmssmtSignBody]
  simp only [Option.bind_eq_bind, r1, r2, r4, Option.bind_some, w0, eR, e1, r3]
  rw [if_neg (by omega)]
  simp only [e2, Option.bind_some, e3', e4, htree, hleaf, ← hW, e5, List.getElem?_eq_getElem hst0, e6, e7]
  rw [← Option.bind_assoc]
  have hfold : mtTraverse H p skSeed pubSeed idx states sigs W.2 = mtTraverse H p skSeed pubSeed idx states sigs W.2 := rfl
  conv at hfold => lhs; rw [mtTraverse]
  simp only [htree, hleaf, Option.bind_eq_bind] at hfold
  rw [hfold]
  cases hv : mtTraverse H p skSeed pubSeed idx states sigs W.2 with
  | none => rfl
  | some v =>
  have e9 := serialize_eq (p := p) (states := v.states) (sigs := v.sigs)
    (skHead (Rfc.toByte (idx + 1) p.index_bytes) skSeed skPrf root pubSeed) y z
    (skHead_length (toByte_length _ _) h1 h2 h3 h4) (by rw [hy, hlen v hv])
  rw [List.append_assoc] at e9
  simp only [Option.bind_some, Option.map_some, e8, e9, Option.some.injEq, FastOut.mk.injEq, SignOut.mk.injEq, true_and, and_true]
  refine ⟨?_, ?_⟩
  · rw [hb7, ← w1, e0]
    simp only [List.append_assoc, List.nil_append]
  · rw [hoff']

/-- `xmssmt_core_sign` behind the exhaustion check. -/
theorem fastXmssmtSignBody_eq (g : p.Good) (hH : ∀ x, (H x).length = p.n)
    {ib skSeed skPrf root pubSeed y z sm0 old post m : Bytes} {states : List BdsState} {sigs : List Bytes} {idx : Nat}
    (hib : ib.length = p.index_bytes) (h1 : skSeed.length = p.n) (h2 : skPrf.length = p.n)
    (h3 : root.length = p.n) (h4 : pubSeed.length = p.n)
    (hy : y.length = (2 * p.d - 1) * bdsStateBytes p + (p.d - 1) * p.wots_sig_bytes)
    (hsm : sm0.length = p.sig_bytes) (hold : old.length = m.length) (sh : ExtShape p states sigs) (Q : MtLocals → Prop)
    (hQ : ∀ v, Q v → ExtShape p v.states v.sigs)
    (hs : ∀ oa, IsOts oa 0 (idx / 2 ^ p.tree_height) (idx % 2 ^ p.tree_height) →
      ∃ v, mtTraverse H p skSeed pubSeed idx states sigs oa = some v ∧ Q v) :
    ∃ v, Q v ∧
      fastXmssmtSignBody H p (skHead ib skSeed skPrf root pubSeed ++ y ++ z) (sm0 ++ old ++ post) m states sigs idx =
      some { ret := 0
             sk := skHead (Rfc.toByte (idx + 1) p.index_bytes) skSeed skPrf root pubSeed ++ extBytes v.states v.sigs ++ z
             sm := Rfc.toByte idx p.index_bytes ++ (suiteOf p H).PRF skPrf (Rfc.toByte idx 32) ++
               ((suiteOf p H).wotsSig skSeed pubSeed ((suiteOf p H).digest ((suiteOf p H).PRF skPrf (Rfc.toByte idx 32)) root
                 idx m) 0 (idx / 2 ^ p.tree_height) (idx % 2 ^ p.tree_height)).flatten ++
               (states.getD 0 default).auth.flatten ++ storedLayers states sigs (p.d - 1) 1 ++ m ++ post
             smlen := p.sig_bytes + m.length
             leaves := totalLeaves v.states } := by
  obtain ⟨oa, ⟨-, ha⟩, hb⟩ := fastXmssmtSignBody_bind (H := H) (idx := idx) (y := y) (z := z) (m := m) (post := post) g hH
    hib h1 h2 h3 h4 hy hsm hold sh
  obtain ⟨v, e, q⟩ := hs oa ha
  refine ⟨v, q, ?_⟩
  rw [hb (fun v' h => by rw [e, Option.some.injEq] at h; subst h; exact extBytes_length (hQ _ q)), e, Option.map_some]

end Xmss
