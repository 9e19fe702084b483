import Verif.Proof.LowFastMtCopy
import Verif.Proof.LowFastTop
/-
The pointer-level model of the fast implementation: `xmssmt_core_sign`.
-/
namespace Xmss.Low

set_option linter.unusedSimpArgs false

variable {P : Prims} {H : Bytes → Bytes} {p : Params}

/-- The ranges that the body writes. -/
abbrev bodyRanges (p : Params) (sk sm pS pF pP R mh pI : Ptr) (l : Nat) : List (Ptr × Nat) :=
  [(sk, p.index_bytes + 4 * p.n + extSize p), (sm, p.sig_bytes + l), (pS, p.n), (pF, p.n), (pP, p.n), (R, p.n), (mh, p.n), (pI, 32)]

set_option maxHeartbeats 4000000 in
/-- `xmssmt_core_sign` after the exhaustion check. -/
theorem fastXmssmtSignBody_sim (F0 : Fast0 P H p) (hib0 : 0 < p.index_bytes) {m : Mem} {sk sm msg pS pF pP R mh pI : Ptr} {N : Nat}
    (bS : pS.blk = N) (bF : pF.blk = N + 1) (bP : pP.blk = N + 2) (bR : R.blk = N + 3) (bH : mh.blk = N + 4) (bI : pI.blk = N + 5)
    (bsk : sk.blk < N) (bsm : sm.blk < N) (bmsg : msg.blk < N)
    (vS : Valid m pS p.n) (vF : Valid m pF p.n) (vP : Valid m pP p.n) (vR : Valid m R p.n) (vH : Valid m mh p.n) (vI : Valid m pI 32)
    {ib ks kf root ps M : Bytes} {states : List BdsState} {sigs : List Bytes} {idx : Nat} {v : MtLocals} (hidx : idx < 2 ^ p.full_height)
    (hsk : Holds m sk (skHead ib ks kf root ps)) (hib : ib.length = p.index_bytes) (h1 : ks.length = p.n) (h2 : kf.length = p.n)
    (h3 : root.length = p.n) (h4 : ps.length = p.n) (hl : states.length = 2 * p.d - 1)
    (S : Sims p (sk + (p.index_bytes + 4 * p.n)) m states (2 ^ 32)) (G : SigsAt p (sigB p (sk + (p.index_bytes + 4 * p.n))) m sigs)
    (hM : Holds m msg M) (hv : Valid m sm (p.sig_bytes + M.length))
    (d1 : Disj sk (p.index_bytes + 4 * p.n + extSize p) sm (p.sig_bytes + M.length)) (d2 : Disj msg M.length sm (p.sig_bytes + M.length))
    (d3 : Disj msg M.length sk (p.index_bytes + 4 * p.n + extSize p)) (hml : p.sig_bytes + M.length < 2 ^ 64)
    (hstl : (storedLayers states sigs (p.d - 1) 1).length = (p.d - 1) * (p.wots_sig_bytes + p.tree_height * p.n))
    (hT : mtTraverse H p ks ps idx states sigs (Xmss.wotsSign H p ((suiteOf p H).digest ((suiteOf p H).PRF kf (Rfc.toByte idx 32)) root idx M) ks ps
      (setOtsAddr (setTreeAddr (setLayerAddr (setType Addr.zero typeOts) 0) (idx / 2 ^ p.tree_height)) (idx % 2 ^ p.tree_height))).2 = some v) :
    ∃ m', fastXmssmtSignBodyL P p m pS pF pP R mh pI sk sm msg M.length (lstates p (sk + (p.index_bytes + 4 * p.n)) states)
        (sigB p (sk + (p.index_bytes + 4 * p.n))) idx = some (p.sig_bytes + M.length, m') ∧
      OnlyIn m m' (bodyRanges p sk sm pS pF pP R mh pI M.length) ∧
      Holds m' sk (skHead (Rfc.toByte (idx + 1) p.index_bytes) ks kf root ps ++ extBytes v.states v.sigs) ∧
      Holds m' sm (Rfc.toByte idx p.index_bytes ++ (suiteOf p H).PRF kf (Rfc.toByte idx 32) ++
        (Xmss.wotsSign H p ((suiteOf p H).digest ((suiteOf p H).PRF kf (Rfc.toByte idx 32)) root idx M) ks ps
          (setOtsAddr (setTreeAddr (setLayerAddr (setType Addr.zero typeOts) 0) (idx / 2 ^ p.tree_height)) (idx % 2 ^ p.tree_height))).1.flatten ++
        (states.getD 0 default).auth.flatten ++ storedLayers states sigs (p.d - 1) 1 ++ M) ∧
      (∀ s ∈ v.states, s.nextLeaf ≤ 2 ^ p.tree_height) := by
  have g := F0.good
  have hth := g.th_lt
  have hfh := g.fh_lt
  have hn := g.n_pos
  have hd0 := g.d_pos
  have hil := g.idx_le
  have hsig := g.sig_eq'
  have hsw := g.sig_wots
  have hn16 := (fits_of_good g).n_lt
  have h1632 : (2 : Nat) ^ 16 * 4 + 8 < 2 ^ 32 := by norm_num
  have hf63 : 2 ^ p.full_height ≤ 2 ^ 63 := Nat.pow_le_pow_right (by omega) (by omega)
  have h6463 : (2 : Nat) ^ 64 = 2 * 2 ^ 63 := by norm_num
  have h64 : 1 ≤ (2 : Nat) ^ 63 := Nat.one_le_two_pow
  have hp30 : 2 ^ p.tree_height ≤ 2 ^ 30 := Nat.pow_le_pow_right (by omega) (by omega)
  have hp32 : (2 : Nat) ^ 30 < 2 ^ 32 := by norm_num
  set c := p.wots_sig_bytes + p.tree_height * p.n with hc
  have hsigc : p.sig_bytes = p.index_bytes + p.n + p.wots_sig_bytes + p.tree_height * p.n + (p.d - 1) * c := by
    have e : (p.wots_len + p.tree_height) * p.n = c := by rw [hc, hsw, Nat.add_mul]
    rw [hsig, e]
    have e2 : p.d * c = c + (p.d - 1) * c := by
      conv => lhs; rw [show p.d = 1 + (p.d - 1) by omega, Nat.add_mul, Nat.one_mul]
    omega
  set B : Ptr := sk + (p.index_bytes + 4 * p.n) with hB
  have bb : B.blk = sk.blk := rfl
  have ob : B.off = sk.off + (p.index_bytes + 4 * p.n) := rfl
  have hel := extSize.eq_1 p
  obtain ⟨-, l1, l2, -, l4, -⟩ := skHead_loads hsk hib h1 h2 h3 h4
  -- the locals
  obtain ⟨m1, t1, o1, H1⟩ := stF vS h1
  have e1 : memcpy m pS (sk + p.index_bytes) p.n = some m1 := by rw [memcpy_of l1 (Or.inr (by dj))]; exact t1
  have l2' : load m1 (sk + p.index_bytes + p.n) p.n = some kf := keepLoad o1 l2 (by dj)
  obtain ⟨m2, t2, o2, H2⟩ := stF (m := m1) (keepValid o1 vF) h2
  have e2 : memcpy m1 pF (sk + p.index_bytes + p.n) p.n = some m2 := by rw [memcpy_of l2' (Or.inr (by dj))]; exact t2
  have l4' : load m2 (sk + p.index_bytes + 3 * p.n) p.n = some ps := keepLoad o2 (keepLoad o1 l4 (by dj)) (by dj)
  obtain ⟨m3, t3, o3, H3⟩ := stF (m := m2) (keepValid o2 (keepValid o1 vP)) h4
  have e3 : memcpy m2 pP (sk + p.index_bytes + w32 (3 * p.n)) p.n = some m3 := by
    rw [w32_lt (x := 3 * p.n) (by omega), memcpy_of l4' (Or.inr (by dj))]; exact t3
  obtain ⟨m4, t4, o4, H4⟩ := stF (m := m3) (q := sk) (x := Rfc.toByte (idx + 1) p.index_bytes) (len := p.index_bytes)
    (keepValid o3 (keepValid o2 (keepValid o1 (by
      have := hsk.1; rw [skHead_length hib h1 h2 h3 h4] at this; exact Valid.sub (q := sk) (len := p.index_bytes + 4 * p.n) this 0 _ (by omega))))) (toByte_length _ _)
  have e4 : idxStoreLoop sk p.index_bytes (w64 (idx + 1)) p.index_bytes 0 m3 = some m4 := by
    rw [w64_lt (x := idx + 1) (by omega), idxStoreLoop_of hil p.index_bytes 0 m3 hib0 (by omega), ullToBytes_eq]; exact t4
  obtain ⟨m5, t5, o5, H5⟩ := stF (m := m4) (q := pI) (x := Rfc.toByte idx 32) (len := 32)
    (keepValid o4 (keepValid o3 (keepValid o2 (keepValid o1 vI)))) (toByte_length _ _)
  have e5 : ullToBytes m4 pI 32 idx = some m5 := by
    rw [ullToBytes_of (Or.inl (by omega)) (by omega) (by omega), ullToBytes_eq]; exact t5
  have O5 : OnlyIn m m5 [(sk, p.index_bytes), (pS, p.n), (pF, p.n), (pP, p.n), (pI, 32)] :=
    ((((o1.sub (by simp)).tr (o2.sub (by simp))).tr (o3.sub (by simp))).tr (o4.sub (by simp))).tr (o5.sub (by simp))
  have hHd : Holds m5 sk (skHead (Rfc.toByte (idx + 1) p.index_bytes) ks kf root ps) := by
    have hr := (skHead_loads hsk hib h1 h2 h3 h4).2.2.2.2.2
    have hl4 : (ks ++ kf ++ root ++ ps).length = 4 * p.n := by simp only [List.length_append]; omega
    have hr5 : Holds m5 (sk + p.index_bytes) (ks ++ kf ++ root ++ ps) := hr.keep O5 (by rw [hl4]; dj)
    have hi5 : Holds m5 sk (Rfc.toByte (idx + 1) p.index_bytes) := H4.keep o5 (by rw [toByte_length]; dj)
    have e : skHead (Rfc.toByte (idx + 1) p.index_bytes) ks kf root ps = Rfc.toByte (idx + 1) p.index_bytes ++ (ks ++ kf ++ root ++ ps) := by
      simp [skHead]
    rw [e, holds_append, toByte_length]
    exact ⟨hi5, hr5⟩
  obtain ⟨-, -, -, groot, -, -⟩ := skHead_loads hHd (toByte_length _ _) h1 h2 h3 h4
  have gS : load m5 pS p.n = some ks := keepLoad o5 (keepLoad o4 (keepLoad o3 (keepLoad o2 (H1.load h1) (by dj)) (by dj)) (by dj)) (by dj)
  have gF : load m5 pF p.n = some kf := keepLoad o5 (keepLoad o4 (keepLoad o3 (H2.load h2) (by dj)) (by dj)) (by dj)
  have gP : load m5 pP p.n = some ps := keepLoad o5 (keepLoad o4 (H3.load h4) (by dj)) (by dj)
  have gI : load m5 pI 32 = some (Rfc.toByte idx 32) := H5.load (toByte_length _ _)
  have gM : Holds m5 msg M := hM.keep O5 (by dj d3)
  have gsm : Valid m5 sm (p.sig_bytes + M.length) := keepValid O5 hv
  have S5 : Sims p B m5 states (2 ^ 32) := S.keep O5 (by rw [hl]; dj)
  have G5 : SigsAt p (sigB p B) m5 sigs := G.keep O5 (by dj)
  -- the first layer
  obtain ⟨w0, hw0⟩ : ∃ w0, states[0]? = some w0 := ⟨_, List.getElem?_eq_getElem (by omega)⟩
  have Sw := S5.sim 0 w0 hw0
  have hdgl : ((suiteOf p H).digest ((suiteOf p H).PRF kf (Rfc.toByte idx 32)) root idx M).length = p.n := F0.hlen _
  have hRl : ((suiteOf p H).PRF kf (Rfc.toByte idx 32)).length = p.n := F0.hlen _
  set A0 := setOtsAddr (setTreeAddr (setLayerAddr (setType Addr.zero typeOts) 0) (idx / 2 ^ p.tree_height)) (idx % 2 ^ p.tree_height) with hA0
  obtain ⟨layer, tree, hsub⟩ := exists_isSub A0
  obtain ⟨wt1, wt2⟩ := Xmss.wotsSign_eq (H := H) g (layer := layer) (tree := tree) (ots := idx % 2 ^ p.tree_height) ks ps hdgl A0
    ⟨hsub.h0, hsub.h1, hsub.h2, rfl, rfl⟩
  have hWl : (Xmss.wotsSign H p ((suiteOf p H).digest ((suiteOf p H).PRF kf (Rfc.toByte idx 32)) root idx M) ks ps A0).1.flatten.length =
      p.wots_len * p.n := by rw [wt1]; exact wotsSig_flat_length g F0.hlen ks ps _ layer tree _
  have hst0 : stSize p ≤ (2 * p.d - 1) * stSize p := Nat.le_mul_of_pos_left _ (by omega)
  obtain ⟨x1, x2, mp, x3, x4, x5, x6, x7, q1, q2, q3, q4, q5, q6, q7, q8, o7, H7⟩ := signFirst_of F0 (N := N) (b := stB p B 0)
    (by omega) hib0 gI gF groot gM gsm (keepValid O5 vR) (keepValid O5 vH) gS gP (by omega) (by omega) (by omega) (by omega) (by omega) (by omega)
    (by omega) (by omega) (by omega) (by omega) bsm bmsg bsk bsk (by dj d1) d2 (by dj d1) hml Sw A0 hWl
  have hal : w0.auth.flatten.length = p.tree_height * p.n := by rw [flatten_length_of Sw.fit.auth_mem, Sw.fit.auth_len]
  have hoa : (Xmss.wotsSign H p ((suiteOf p H).digest ((suiteOf p H).PRF kf (Rfc.toByte idx 32)) root idx M) ks ps A0).2.a3 = UInt32.ofNat 0 := wt2.h3
  generalize Xmss.wotsSign H p ((suiteOf p H).digest ((suiteOf p H).PRF kf (Rfc.toByte idx 32)) root idx M) ks ps A0 = W at *
  generalize (suiteOf p H).PRF kf (Rfc.toByte idx 32) = Rv at *
  have S7 : Sims p B x7 states (2 ^ 32) := S5.keep o7 (by rw [hl]; dj d1)
  have G7 : SigsAt p (sigB p B) x7 sigs := G5.keep o7 (by dj d1)
  have v7 := keepValid o7 gsm
  -- the upper layers
  set qs : Ptr := sm + p.index_bytes + p.n + p.wots_sig_bytes + p.tree_height * p.n with hqs
  have bq : qs.blk = sm.blk := rfl
  have oq : qs.off = sm.off + p.index_bytes + p.n + p.wots_sig_bytes + p.tree_height * p.n := rfl
  have vq : Valid x7 qs ((p.d - 1) * c) := by
    rw [hqs, add_add, add_add, add_add]; exact v7.sub _ _ (by omega)
  obtain ⟨x8, f8, o8, H8⟩ := mtCopyLoop_of F0 hc hl (p.d - 1) 1 x7 qs (p.index_bytes + p.n + p.wots_sig_bytes + p.tree_height * p.n) (Nat.le_refl _)
    (by omega) vq S7 G7 (by dj d1)
  have S8 : Sims p B x8 states (2 ^ 32) := S7.keep o8 (by rw [hl]; dj d1)
  have G8 : SigsAt p (sigB p B) x8 sigs := G7.keep o8 (by dj d1)
  have k8S : load x8 pS p.n = some ks := keepLoad o8 (keepLoad o7 gS (by dj)) (by dj)
  have k8P : load x8 pP p.n = some ps := keepLoad o8 (keepLoad o7 gP (by dj)) (by dj)
  -- the traversal
  obtain ⟨x9, f9, o9, V9⟩ := mtTraverse_sim F0 hidx hl S8 G8 hoa k8S k8P (by dj) (by dj) hT
  -- the message
  have M9 : load x9 msg M.length = some M := keepLoad o9 (keepLoad o8 (keepLoad o7 (gM.load rfl) (by dj d2)) (by dj d2)) (by dj d3)
  have v9 := keepValid o9 (keepValid o8 v7)
  obtain ⟨x10, t10, o10, H10⟩ := stF (m := x9) (q := qs + (p.d - 1) * c) (x := M) (len := M.length)
    (by rw [hqs, add_add, add_add, add_add, add_add]; exact v9.sub _ _ (by omega)) rfl
  have f10 : memcpy x9 (qs + (p.d - 1) * c) msg M.length = some x10 := by
    rw [memcpy_of M9 (Or.inr (by dj d2))]; exact t10
  have S10 : Sims p B x10 v.states (2 ^ 32 + p.d * 2 ^ 32) := V9.sims.keep o10 (by rw [V9.len]; dj d1)
  have G10 : SigsAt p (sigB p B) x10 v.sigs := V9.sigs.keep o10 (by dj d1)
  -- the states
  have vB : Valid m B ((2 * p.d - 1) * stSize p) := by
    obtain ⟨b, hb1, hb2⟩ := G.valid
    refine ⟨b, hb1, ?_⟩
    simp only [add_off] at hb2
    omega
  have vB10 : Valid x10 B ((2 * p.d - 1) * stSize p) := keepValid o10 (keepValid o9 (keepValid o8 (keepValid o7 (keepValid O5 vB))))
  have hdl : p.d ≤ p.full_height := by rw [← g.height]; exact Nat.le_mul_of_pos_left _ g.th_pos
  have hk : 2 ^ 32 + p.d * 2 ^ 32 ≤ 2 ^ 64 := by
    have h1 : p.d * 2 ^ 32 ≤ 64 * 2 ^ 32 := Nat.mul_le_mul_right _ (by omega)
    have h2 : 2 ^ 32 + 64 * 2 ^ 32 ≤ 2 ^ 64 := by norm_num
    exact le_trans (Nat.add_le_add_left h1 _) h2
  obtain ⟨x11, f11, o11, H11⟩ := writeStatesL_of F0 v.states B x10 (by rw [V9.len]; exact vB10)
    (by
      intro s hs
      have cc := S10.cap s hs
      exact ⟨fun t ht => lt_of_lt_of_le (cc.1 t ht) hk, by have := cc.2; omega⟩)
    (by
      intro i s hi
      exact ⟨_, S10.sim i s hi⟩)
  rw [V9.len] at o11
  have f12 : serializeL p x10 sk (lstates p B v.states) = some x11 := by
    rw [serializeL, w32_lt (x := 4 * p.n) (by omega), w32_lt (by omega), ← hB, ← f11]
  have G11 : SigsAt p (sigB p B) x11 v.sigs := G10.states o11
  refine ⟨x11, ?_, ?_, ?_, ?_, fun s hs => (S10.cap s hs).2⟩
  · rw [fastXmssmtSignBodyL]
    have hLS0 : (lstates p B states)[0]? = some (lst p (stB p B 0) w0) := by rw [lstates_get, hw0]; rfl
    generalize lstates p B states = LS at *
    simp (config := { maxSteps := 10000000 }) only [Option.bind_eq_bind]
    rw [w32_lt (x := 2 * p.n) (by omega), e1, Option.bind_some, e2, Option.bind_some, e3, Option.bind_some, e4, Option.bind_some, e5, Option.bind_some]
    obtain ⟨r1, g1, g2⟩ := Option.bind_eq_some_iff.mp q3
    rw [q1, Option.bind_some, q2, Option.bind_some, g1, Option.bind_some, g2, Option.bind_some, q4, Option.bind_some, q5, Option.bind_some,
      q6, Option.bind_some]
    rw [show oneShift p = some (2 ^ p.tree_height) by rw [oneShift, if_neg (by omega), Nat.one_shiftLeft], Option.bind_some,
      show shr64 idx p.tree_height = some (idx >>> p.tree_height) from if_neg (by omega), Option.bind_some]
    have ha : setOtsAddr (setTreeAddr (setLayerAddr (setType Addr.zero typeOts) 0) (idx >>> p.tree_height)) (w32 (idx &&& (2 ^ p.tree_height - 1))) = A0 := by
      rw [hA0, Nat.shiftRight_eq_div_pow, Nat.and_two_pow_sub_one_eq_mod, w32_lt]
      have := Nat.mod_lt idx (Nat.two_pow_pos p.tree_height); omega
    rw [ha, q7, Option.bind_some, hLS0, Option.bind_some]
    dsimp only
    rw [q8, Option.bind_some, F0.mul_lt (by omega), ← hqs, f8, Option.bind_some]
    dsimp only
    rw [show one64 p.full_height = some (2 ^ p.full_height) from if_neg (by omega), Option.bind_some]
    refine (Option.bind_assoc _ _ _).symm.trans ?_
    simp only [Option.bind_eq_bind] at f9
    rw [f9, Option.bind_some]
    show (memcpy x9 _ _ _).bind _ = _
    rw [f10, Option.bind_some]
    show (serializeL p x10 sk (lstates p B v.states)).bind _ = _
    rw [f12, Option.bind_some, show p.index_bytes + p.n + p.wots_sig_bytes + p.tree_height * p.n + (p.d - 1) * c + M.length = p.sig_bytes + M.length by omega,
      w64_lt hml]
  · have one : ∀ {a b : Mem} {q : Ptr} {len : Nat} (s : Ptr) (l : Nat), OnlyIn a b [(q, len)] → (s, l) ∈ bodyRanges p sk sm pS pF pP R mh pI M.length →
        q.blk = s.blk → s.off ≤ q.off → q.off + len ≤ s.off + l → OnlyIn a b (bodyRanges p sk sm pS pF pP R mh pI M.length) :=
      fun s l h1 h2 h3 h4 h5 => h1.into1 s l h2 h3 h4 h5
    have oo5 : OnlyIn m m5 (bodyRanges p sk sm pS pF pP R mh pI M.length) := by
      refine O5.into ?_
      intro r hr
      simp only [List.mem_cons, List.not_mem_nil, or_false] at hr
      rcases hr with rfl | rfl | rfl | rfl | rfl
      · exact ⟨_, List.mem_cons_self, rfl, Nat.le_refl _, by simp only; omega⟩
      all_goals exact ⟨_, by simp only [bodyRanges, List.mem_cons, true_or, or_true], rfl, Nat.le_refl _, Nat.le_refl _⟩
    have mk : (sk, p.index_bytes + 4 * p.n + extSize p) ∈ bodyRanges p sk sm pS pF pP R mh pI M.length := List.mem_cons_self
    have ms : (sm, p.sig_bytes + M.length) ∈ bodyRanges p sk sm pS pF pP R mh pI M.length := List.mem_cons_of_mem _ List.mem_cons_self
    have oo7 := o7.sub (c := bodyRanges p sk sm pS pF pP R mh pI M.length) (by
      intro r hr
      simp only [List.mem_cons, List.not_mem_nil, or_false] at hr
      rcases hr with rfl | rfl | rfl <;> simp only [bodyRanges, List.mem_cons, true_or, or_true])
    exact ((((oo5.tr oo7).tr (one sm _ o8 ms bq (by omega) (by omega))).tr (one sk _ o9 mk bb (by omega) (by omega))).tr
      (one sm _ o10 ms bq (by simp only [add_off]; omega) (by simp only [add_off]; omega))).tr (one sk _ o11 mk bb (by omega) (by omega))
  · have hl : (skHead (Rfc.toByte (idx + 1) p.index_bytes) ks kf root ps).length = p.index_bytes + 4 * p.n := skHead_length (toByte_length _ _) h1 h2 h3 h4
    rw [holds_append, hl]
    refine ⟨((((hHd.keep o7 ?_).keep o8 ?_).keep o9 ?_).keep o10 ?_).keep o11 ?_, ?_⟩
    all_goals try rw [hl]
    · dj d1
    · dj d1
    · dj
    · dj d1
    · dj
    · rw [extBytes, holds_append]
      refine ⟨H11, ?_⟩
      have hbl : ((v.states.map stateBytes).flatten).length = (2 * p.d - 1) * stSize p := by
        rw [flatten_length_of (n := stSize p), List.length_map, V9.len]
        intro x hx
        obtain ⟨s, hs, rfl⟩ := List.mem_map.mp hx
        obtain ⟨j, hj⟩ := List.mem_iff_getElem?.mp hs
        exact stateBytes_len (S10.sim j s hj).fit
      rw [hbl]
      exact G11.holds
  · have hl7 : (Rfc.toByte idx p.index_bytes ++ Rv ++ W.1.flatten ++ w0.auth.flatten).length =
        p.index_bytes + p.n + p.wots_sig_bytes + p.tree_height * p.n := by
      simp only [List.length_append, toByte_length, hRl, hWl, hal]; omega
    have hq' : sm + (p.index_bytes + p.n + p.wots_sig_bytes + p.tree_height * p.n) = qs := by
      rw [hqs, add_add, add_add, add_add, show p.index_bytes + p.n + p.wots_sig_bytes + p.tree_height * p.n =
        p.index_bytes + (p.n + (p.wots_sig_bytes + p.tree_height * p.n)) by omega]
    rw [List.getD_eq_getElem?_getD, hw0, Option.getD_some, List.append_assoc, holds_append, hl7, hq']
    refine ⟨(((H7.keep o8 ?_).keep o9 ?_).keep o10 ?_).keep o11 ?_, holds_append.mpr ⟨((H8.keep o9 ?_).keep o10 ?_).keep o11 ?_, ?_⟩⟩
    rotate_right
    · rw [hstl]; exact H10.keep o11 (by dj d1)
    all_goals first | rw [hl7] | rw [hstl, ← hc] | skip
    · dj
    · dj d1
    · dj
    · dj d1
    · dj d1
    · dj
    · dj d1

end Xmss.Low
