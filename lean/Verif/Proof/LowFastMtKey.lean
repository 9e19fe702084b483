import Verif.Proof.LowFastMtTop
/-
The pointer-level model of the fast implementation: `xmssmt_core_keypair`.
-/
namespace Xmss.Low

set_option linter.unusedSimpArgs false

variable {P : Prims} {H : Bytes → Bytes} {p : Params}

theorem Sims.upd2 {B : Ptr} {m m' : Mem} {l : List BdsState} {K i : Nat} {w w' : BdsState} (h : Sims p B m l K) (hi : l[i]? = some w)
    {rs : List (Ptr × Nat)} (ho : OnlyIn m m' ((stB p B i, stSize p) :: rs)) (hd : ∀ r ∈ rs, Disj B (l.length * stSize p) r.1 r.2)
    (S : Sim p (.upd (stB p B i)) false m' (.mem (stB p B i + offF p (.lev 0))) w')
    (hc : ∀ t ∈ w'.treehash, t.nextIdx < K) (hn : w'.nextLeaf ≤ 2 ^ p.tree_height) : Sims p B m' (l.set i w') K := by
  have hil := (List.getElem?_eq_some_iff.mp hi).1
  refine ⟨?_, ?_⟩
  · intro j x hj
    rw [List.getElem?_set] at hj
    by_cases hij : i = j
    · subst hij
      rw [if_pos rfl, if_pos hil, Option.some.injEq] at hj
      subst hj
      exact S
    · rw [if_neg hij] at hj
      refine (h.sim j x hj).keep ho ?_
      intro r hr
      rcases List.mem_cons.mp hr with rfl | hr
      · exact stB_disj (Ne.symm hij)
      · have := stB_in (p := p) (B := B) (List.getElem?_eq_some_iff.mp hj).1
        rcases hd r hr with h1 | h1
        · exact Or.inl h1
        · right; omega
  · intro x hx
    rcases List.mem_or_eq_of_mem_set hx with hx | rfl
    · exact h.cap x hx
    · exact ⟨hc, hn⟩

/-- A pointer apart from all states is apart from one. -/
theorem Disj.st {q B : Ptr} {k n i : Nat} (h : Disj q k B (n * stSize p)) (hi : i < n) : Disj q k (stB p B i) (stSize p) := by
  have := stB_in (p := p) (B := B) hi
  rcases h with h | h
  · exact Or.inl h
  · right; omega

set_option maxHeartbeats 1000000 in
/-- The loop of `xmssmt_core_keypair`. -/
theorem fastKeypairLoopL_sim (F1 : FastMt p) (F0 : Fast0 P H p) {B pk pS pP : Ptr} {ks ps : Bytes}
    (dS : Disj pS p.n B (extSize p)) (dP : Disj pP p.n B (extSize p)) (dK : Disj pk p.n B (extSize p))
    (dSK : Disj pS p.n pk p.n) (dPK : Disj pP p.n pk p.n) :
    ∀ (k i : Nat) (m : Mem) (states : List BdsState) (sigs : List Bytes) (addr : Addr) (st' : List BdsState) (sg' : List Bytes) (ad' : Addr),
      i + k ≤ p.d - 1 → states.length = 2 * p.d - 1 → Sims p B m states (2 ^ 32) → SigsAt p (sigB p B) m sigs → load m pS p.n = some ks →
      load m pP p.n = some ps → Valid m pk p.n → IsOts addr i 0 0 →
      fastKeypairLoop H p ks ps k i states sigs addr = some (st', sg', ad') →
      ∃ m', fastKeypairLoopL P p pk (sigB p B) pS pP k i (lstates p B states) m addr = some (lstates p B st', m', ad') ∧
        OnlyIn m m' [(B, extSize p), (pk, p.n)] ∧ Sims p B m' st' (2 ^ 32) ∧ SigsAt p (sigB p B) m' sg' ∧ st'.length = 2 * p.d - 1 ∧
        IsOts ad' (i + k) 0 0 := by
  have g := F0.good
  have hth4 := F1.th
  have hd2 := F1.d
  have hsw := g.sig_wots
  intro k
  induction k with
  | zero =>
    intro i m states sigs addr st' sg' ad' _ hl S G _ _ _ ha h
    cases h
    exact ⟨m, rfl, onlyIn_refl _ _, S, G, hl, ha⟩
  | succ k ih =>
    intro i m states sigs addr st' sg' ad' hk hl S G tS tP hv ha h
    rw [fastKeypairLoop] at h
    obtain ⟨w, hw, h⟩ := Option.bind_eq_some_iff.mp h
    obtain ⟨⟨root, w'⟩, hr, h⟩ := Option.bind_eq_some_iff.mp h
    simp only at h
    obtain ⟨sg1, hsg, h⟩ := Option.bind_eq_some_iff.mp h
    have hin : i < 2 * p.d - 1 := by omega
    have Sw := S.sim i w hw
    have cw := S.cap w (List.mem_of_getElem? hw)
    have h30 : (2 : Nat) ^ 30 < 2 ^ 32 := by norm_num
    have hth := g.th_lt
    have hp30 : 2 ^ p.tree_height ≤ 2 ^ 30 := Nat.pow_le_pow_right (by omega) (by omega)
    have dS0 := Disj.ext dS
    have dP0 := Disj.ext dP
    have dK0 := Disj.ext dK
    obtain ⟨m1, t1, o1, l1, S1, k1, n1⟩ := treehashInit_sim F0 (by omega) (treeCtx_suite g F0.hlen ks ps i 0) (addr := addr) ⟨ha.h0, ha.h1, ha.h2⟩
      Sw cw.1 (by omega) tS tP (dS0.st hin) (dP0.st hin) (node := pk) hv (dK0.st hin) hr
    have SS1 : Sims p B m1 (states.set i w') (2 ^ 32) := by
      refine S.upd2 hw o1 ?_ S1 k1 (by rw [n1]; exact cw.2)
      intro r hr
      simp only [List.mem_singleton] at hr
      subst hr
      rw [hl]; exact Disj.symm dK0
    have sub1 : OnlyIn m m1 [(B, extSize p), (pk, p.n)] := by
      refine o1.into ?_
      intro r hr
      have hin' := stB_in (p := p) (B := B) hin
      simp only [List.mem_cons, List.not_mem_nil, or_false] at hr
      rcases hr with rfl | rfl
      · exact ⟨_, List.mem_cons_self, rfl, hin'.1, by unfold extSize; simp only; omega⟩
      · exact ⟨_, List.mem_cons_of_mem _ List.mem_cons_self, rfl, Nat.le_refl _, Nat.le_refl _⟩
    have G1 : SigsAt p (sigB p B) m1 sigs := by
      refine G.keep o1 ?_
      have hin' := stB_in (p := p) (B := B) hin
      intro r hr
      simp only [List.mem_cons, List.not_mem_nil, or_false] at hr
      rcases hr with rfl | rfl
      · right; right
        show (stB p B i).off + stSize p ≤ B.off + (2 * p.d - 1) * stSize p
        omega
      · unfold extSize at dK
        rcases dK with h1 | h1
        · exact Or.inl (Ne.symm h1)
        · right
          simp only [add_off]
          omega
    have kS : load m1 pS p.n = some ks := keepLoad sub1 tS (by
      intro r hr
      simp only [List.mem_cons, List.not_mem_nil, or_false] at hr
      rcases hr with rfl | rfl
      · exact dS
      · exact dSK)
    have kP : load m1 pP p.n = some ps := keepLoad sub1 tP (by
      intro r hr
      simp only [List.mem_cons, List.not_mem_nil, or_false] at hr
      rcases hr with rfl | rfl
      · exact dP
      · exact dPK)
    have hse : i * p.wots_sig_bytes + p.wots_sig_bytes ≤ (p.d - 1) * p.wots_sig_bytes := mul_end (by omega)
    have hva : Valid m1 (sigB p B + i * p.wots_sig_bytes) (p.wots_len * p.n) := by
      rw [← hsw]; exact G1.valid.sub _ _ hse
    have dG : ∀ {q : Ptr}, Disj q p.n B (extSize p) → Disj q p.n (sigB p B + i * p.wots_sig_bytes) (p.wots_len * p.n) := by
      intro q hq
      rw [← hsw]
      unfold extSize at hq
      rcases hq with h1 | h1
      · exact Or.inl h1
      · right
        simp only [add_off]
        omega
    obtain ⟨m2, s2, e2⟩ := wotsSign_of F0.hash F0.hlen g hva (dG dS) (dG dP) l1 kS kP (setLayerAddr addr (i + 1))
    have hrl : root.length = p.n := load_length l1
    have ha1 : IsOts (setLayerAddr addr (i + 1)) (i + 1) 0 0 := ⟨rfl, ha.h1, ha.h2, ha.h3, ha.h4⟩
    obtain ⟨w1, w2⟩ := Xmss.wotsSign_eq (H := H) g ks ps hrl _ ha1
    have hwl : (Xmss.wotsSign H p root ks ps (setLayerAddr addr (i + 1))).1.flatten.length = p.wots_sig_bytes := by
      rw [w1, wotsSig_flat_length g F0.hlen, hsw]
    generalize Xmss.wotsSign H p root ks ps (setLayerAddr addr (i + 1)) = W at *
    have hsg' : sg1 = sigs.set i W.1.flatten := by
      unfold setA at hsg
      split at hsg
      · exact (Option.some.inj hsg).symm
      · cases hsg
    subst hsg'
    have G2 := G1.set hwl s2
    have o2 := store_onlyIn s2
    rw [hwl] at o2
    have d2 : ∀ {q : Ptr} {l : Nat}, Disj q l B (extSize p) → Disj q l (sigB p B + i * p.wots_sig_bytes) p.wots_sig_bytes := by
      intro q l hq
      unfold extSize at hq
      rcases hq with h1 | h1
      · exact Or.inl h1
      · right
        simp only [add_off]
        omega
    have SS2 : Sims p B m2 (states.set i w') (2 ^ 32) := by
      refine SS1.keep o2 ?_
      intro r hr
      simp only [List.mem_singleton] at hr
      subst hr
      rw [List.length_set, hl]
      right; left
      simp only [add_off]
      omega
    have one : ∀ r ∈ ([(sigB p B + i * p.wots_sig_bytes, p.wots_sig_bytes)] : List (Ptr × Nat)), r = (sigB p B + i * p.wots_sig_bytes, p.wots_sig_bytes) :=
      fun r hr => List.mem_singleton.mp hr
    obtain ⟨m', f1, f2, f3, f4, f5, f6⟩ := ih (i + 1) m2 _ _ _ st' sg' ad' (by omega) (by rw [List.length_set, hl]) SS2 G2
      (keepLoad o2 kS (by intro r hr; obtain rfl := one r hr; exact d2 dS)) (keepLoad o2 kP (by intro r hr; obtain rfl := one r hr; exact d2 dP))
      (keepValid o2 (keepValid o1 hv)) w2 h
    refine ⟨m', ?_, (sub1.tr (o2.into1 B (extSize p) List.mem_cons_self rfl ?_ ?_)).tr f2, f3, f4, f5, ?_⟩
    · have hiw : i * p.wots_sig_bytes < 2 ^ 32 := by
        have h1 := g.sig_lt
        have h2 := g.sig_eq
        have h3 : i * p.wots_sig_bytes ≤ p.d * p.wots_sig_bytes := Nat.mul_le_mul_right _ (by omega)
        omega
      rw [fastKeypairLoopL]
      simp only [Option.bind_eq_bind]
      rw [lstates_get, hw, Option.map_some, Option.bind_some, t1, Option.bind_some]
      dsimp only
      rw [w32_lt hiw, e2, Option.bind_some]
      dsimp only
      rw [← lstates_set, f1]
    · simp only [add_off]; omega
    · unfold extSize; simp only [add_off]; omega
    · rw [show i + (k + 1) = i + 1 + k by omega]; exact f6

set_option maxHeartbeats 2000000 in
/-- `xmssmt_core_keypair` of the fast implementation does to memory what the first model does to the contents of the buffers. -/
theorem fastXmssmtKeypairL_of (F1 : FastMt p) (F0 : Fast0 P H p) {m0 : Mem} {pk sk : Ptr} {pk0 key sA sB sC pk' sk' : Bytes}
    (hkl : key.length = p.sk_bytes) (hpl : pk0.length = 2 * p.n) (hA : sA.length = p.n) (hB : sB.length = p.n) (hC : sC.length = p.n)
    (ho : fastXmssmtKeypair H p pk0 key (sA ++ sB ++ sC) = some (pk', sk')) (hk : Holds m0 sk key) (hv : Valid m0 pk (2 * p.n))
    (d1 : Disj pk (2 * p.n) sk p.sk_bytes) :
    ∃ m', fastXmssmtKeypairL P p m0 pk sk (sA ++ sB ++ sC) = some m' ∧ Holds m' pk pk' ∧ Holds m' sk sk' ∧
      OnlyIn m0 m' [(pk, 2 * p.n), (sk, p.sk_bytes)] ∧ Counted p sk' := by
  have g := F0.good
  have hn := g.n_pos
  have hth := g.th_lt
  have hn16 := (fits_of_good g).n_lt
  have hI := F1.ib_pos
  have hil := g.idx_le
  have hd2 := F1.d
  have hth4 := F1.th
  have h1632 : (2 : Nat) ^ 16 * 4 + 8 < 2 ^ 32 := by norm_num
  obtain ⟨st0, sg0, sta, sga, ad, sd, w', eds', elp, esd, eti, states, est, shx, -, -, efk⟩ := fastXmssmtKeypair_run F1 F0.hlen pk0 key sA sB sC hpl hkl hA hB hC
  rw [efk, Option.some.injEq, Prod.mk.injEq] at ho
  obtain ⟨rfl, rfl⟩ := ho
  obtain ⟨st1, sg1, eds, ex, -, erd⟩ := deserialize_any (p := p) key (by rw [hkl, F1.sk])
  rw [eds', Option.some.injEq, Prod.mk.injEq] at eds
  obtain ⟨rfl, rfl⟩ := eds
  obtain ⟨hst, hes⟩ := extSize_bytes F0 ex (by omega)
  have hskb : p.sk_bytes = p.index_bytes + 4 * p.n + extSize p := by
    rw [F1.sk, fastSkBytes, ← hes]; omega
  have hdrop : key.drop (p.index_bytes + 4 * p.n) = extBytes st0 sg0 := by
    rw [hes] at erd
    rw [rd_some (by omega)] at erd
    simp only [Option.some.injEq] at erd
    rw [List.take_of_length_le (by simp; omega)] at erd
    exact erd
  have hks : Holds m0 (sk + (p.index_bytes + 4 * p.n)) (extBytes st0 sg0) := by
    rw [← List.take_append_drop (p.index_bytes + 4 * p.n) key, holds_append, hdrop, List.length_take, Nat.min_eq_left (by omega)] at hk
    exact hk.2
  have hbl : ((st0.map stateBytes).flatten).length = (2 * p.d - 1) * stSize p := by
    rw [states_length ex.states_mem, ex.states_len, hst]
  rw [extBytes, holds_append, hbl] at hks
  have hvk : Valid m0 sk p.sk_bytes := by have := hk.1; rw [hkl] at this; exact this
  rw [hskb] at d1 hvk
  set b : Ptr := sk + (p.index_bytes + 4 * p.n) with hb
  have ob : b.off = sk.off + (p.index_bytes + 4 * p.n) := rfl
  have bb : b.blk = sk.blk := rfl
  set st1 := st0.map (fun s => { s with stackoffset := 0, nextLeaf := 0 }) with hst1
  have hl1 : st1.length = 2 * p.d - 1 := by rw [hst1, List.length_map]; exact ex.states_len
  have S0 : Sims p b m0 st1 (2 ^ 32) := by
    refine ⟨?_, ?_⟩
    · intro i w hi
      rw [hst1, List.getElem?_map] at hi
      obtain ⟨w0, hw0, rfl⟩ := Option.map_eq_some_iff.mp hi
      have sh0 := ex.states_mem w0 (List.mem_of_getElem? hw0)
      have hil := (List.getElem?_eq_some_iff.mp hw0).1
      refine Sim.scal (sim_of_holds (Shape.fit sh0 F0.k0) ?_)
      have h1 := hks.1
      have e : st0 = st0.take i ++ w0 :: st0.drop (i + 1) := by
        rw [← (List.getElem?_eq_some_iff.mp hw0).2, List.cons_getElem_drop_succ, List.take_append_drop]
      rw [e, List.map_append, List.flatten_append, holds_append] at h1
      have hlen : ((st0.take i).map stateBytes).flatten.length = i * stSize p := by
        rw [flatten_length_of (n := stSize p), List.length_map, List.length_take, Nat.min_eq_left (by omega)]
        intro x hx
        obtain ⟨s, hs, rfl⟩ := List.mem_map.mp hx
        exact stateBytes_len (Shape.fit (ex.states_mem s (List.mem_of_mem_take hs)) F0.k0)
      rw [hlen, List.map_cons, List.flatten_cons, holds_append] at h1
      exact h1.2.1
    · intro w hw
      rw [hst1] at hw
      obtain ⟨w0, hw0, rfl⟩ := List.mem_map.mp hw
      exact ⟨fun t ht => ((ex.states_mem w0 hw0).insts_mem t ht).2.1, Nat.zero_le _⟩
  have G0 : SigsAt p (sigB p b) m0 sg0 := ⟨ex.sigs_len, ex.sigs_mem, hks.2⟩
  set T := (suiteOf p H).root sA sC with hT
  have hTl : T.length = p.n := node_length g F0.hlen _ _ _ _ _ _
  have hd64 : p.d ≤ 64 := by
    have h1 := g.height
    have h2 := g.fh_lt
    have h3 := Nat.le_mul_of_pos_left p.d g.th_pos
    omega
  have eu : usub (w32 (2 * p.d)) 1 = 2 * p.d - 1 := by rw [w32_lt (by omega), usub_eq (by omega) (by omega)]
  have eu1 : usub p.d 1 = p.d - 1 := usub_eq (by omega) (by omega)
  have a1 : arraysOk p = true := by
    unfold arraysOk
    rw [F0.instsL, eu]
    simp only [ne_eq, decide_eq_true_eq]
    exact ⟨by omega, by omega⟩
  have a2 : deserializeL p m0 sk = some (lstates p b st0, sigB p b) := by
    have := readStatesL_of F0 st0 b ex.states_mem hks.1
    rw [ex.states_len] at this
    rw [deserializeL, w32_lt (x := 4 * p.n) (by omega), w32_lt (x := p.index_bytes + 4 * p.n) (by omega), ← hb, eu]
    exact this
  -- index, seeds
  obtain ⟨m1, t1, o1, H1⟩ := stF (m := m0) (q := sk) (x := List.replicate p.index_bytes 0) (len := p.index_bytes) (hvk.sub 0 _ (by omega)) (by simp)
  have v1 := keepValid o1 hvk
  obtain ⟨m2, t2, o2, H2⟩ := stF (m := m1) (q := sk + p.index_bytes) (x := sA ++ sB) (len := 2 * p.n) (v1.sub _ _ (by omega)) (by simp; omega)
  have v2 := keepValid o2 v1
  obtain ⟨m3, t3, o3, H3⟩ := stF (m := m2) (q := sk + p.index_bytes + 3 * p.n) (x := sC) (len := p.n)
    (by rw [add_add]; exact v2.sub _ _ (by omega)) hC
  have v3 := keepValid o3 v2
  have p3 := keepValid o3 (keepValid o2 (keepValid o1 hv))
  obtain ⟨m4, t4, o4, H4⟩ := stF (m := m3) (q := pk + p.n) (x := sC) (len := p.n) (p3.sub _ _ (by omega)) hC
  have e4 : memcpy m3 (pk + p.n) (sk + p.index_bytes + 3 * p.n) p.n = some m4 := by
    rw [memcpy_of (x := sC) (H3.load hC) (Or.inr (by dj d1))]; exact t4
  have v4 := keepValid o4 v3
  have p4 := keepValid o4 p3
  have hxe : extSize p = (2 * p.d - 1) * stSize p + (p.d - 1) * p.wots_sig_bytes := rfl
  have S4 : Sims p b m4 st1 (2 ^ 32) :=
    (((S0.keep o1 (by rw [hl1]; dj)).keep o2 (by rw [hl1]; dj)).keep o3 (by rw [hl1]; dj)).keep o4 (by rw [hl1]; dj d1)
  have G4 : SigsAt p (sigB p b) m4 sg0 :=
    (((G0.keep o1 (by dj)).keep o2 (by dj)).keep o3 (by dj)).keep o4 (by dj d1)
  have A4 : load m4 (sk + p.index_bytes) p.n = some sA := by
    have : load m2 (sk + p.index_bytes) p.n = some sA := (holds_append.mp H2).1.load hA
    exact keepLoad o4 (keepLoad o3 this (by dj)) (by dj d1)
  have P4 : load m4 (pk + p.n) p.n = some sC := H4.load hC
  -- the trees
  obtain ⟨m5, t5, o5, S5, G5, l5, ia⟩ := fastKeypairLoopL_sim F1 F0 (B := b) (pk := pk) (pS := sk + p.index_bytes) (pP := pk + p.n) (by dj) (by dj d1) (by dj d1)
    (by dj d1) (by dj) (p.d - 1) 0 m4 st1 sg0 _ _ _ _ (by omega) hl1 S4 G4 A4 P4 (p4.sub 0 p.n (by omega)) ⟨rfl, rfl, rfl, rfl, rfl⟩ elp
  rw [Nat.zero_add] at ia
  have v5 := keepValid o5 v4
  have p5 := keepValid o5 p4
  have A5 : load m5 (sk + p.index_bytes) p.n = some sA := keepLoad o5 A4 (by dj d1)
  have P5 : load m5 (pk + p.n) p.n = some sC := keepLoad o5 P4 (by dj d1)
  have hin : p.d - 1 < 2 * p.d - 1 := by omega
  have hB1 := stB_in (p := p) (B := b) hin
  have eS : Disj (sk + p.index_bytes) p.n b (extSize p) := by dj
  have eP : Disj (pk + p.n) p.n b (extSize p) := by dj d1
  have eK : Disj pk p.n b (extSize p) := by dj d1
  have cs := S5.cap sd (List.mem_of_getElem? esd)
  have h30 : (2 : Nat) ^ 30 < 2 ^ 32 := by norm_num
  have hp30 : 2 ^ p.tree_height ≤ 2 ^ 30 := Nat.pow_le_pow_right (by omega) (by omega)
  obtain ⟨m6, t6, o6, l6, S6, k6, n6⟩ := treehashInit_sim F0 (by omega) (treeCtx_suite g F0.hlen sA sC (p.d - 1) 0) (addr := ad) ⟨ia.h0, ia.h1, ia.h2⟩
    (S5.sim _ sd esd) cs.1 (by omega) A5 P5 (eS.ext.st hin) (eP.ext.st hin) (node := pk) (p5.sub 0 p.n (by omega)) (eK.ext.st hin) eti
  have v6 := keepValid o6 v5
  have SS6 : Sims p b m6 states (2 ^ 32) := by
    rw [est]
    refine S5.upd2 esd o6 ?_ S6 k6 (by rw [n6]; exact cs.2)
    intro r hr
    simp only [List.mem_singleton] at hr
    subst hr
    rw [l5]; dj d1
  have G6 : SigsAt p (sigB p b) m6 sga := by
    refine G5.keep o6 ?_
    intro r hr
    simp only [List.mem_cons, List.not_mem_nil, or_false] at hr
    rcases hr with rfl | rfl
    · right; right
      show (stB p b (p.d - 1)).off + stSize p ≤ b.off + (2 * p.d - 1) * stSize p
      omega
    · dj d1
  have hsl : states.length = 2 * p.d - 1 := shx.states_len
  obtain ⟨m7, t7, o7, H7⟩ := stF (m := m6) (q := sk + p.index_bytes + 2 * p.n) (x := T) (len := p.n)
    (by rw [add_add]; exact v6.sub _ _ (by omega)) hTl
  have e7 : memcpy m6 (sk + p.index_bytes + 2 * p.n) pk p.n = some m7 := by
    rw [memcpy_of l6 (Or.inr (by dj d1))]; exact t7
  have SS7 : Sims p b m7 states (2 ^ 32) := SS6.keep o7 (by rw [hsl]; dj)
  have G7 : SigsAt p (sigB p b) m7 sga := G6.keep o7 (by dj)
  have v7 : Valid m7 b ((2 * p.d - 1) * stSize p) := (keepValid o7 v6).sub _ _ (by omega)
  have h3264 : (2 : Nat) ^ 32 < 2 ^ 64 := by norm_num
  obtain ⟨m8, e8, o8, H8⟩ := writeStatesL_of F0 states b m7 (by rw [hsl]; exact v7)
    (by
      intro s hs
      have cc := SS7.cap s hs
      exact ⟨fun t ht => lt_trans (cc.1 t ht) h3264, by have := cc.2; omega⟩)
    (fun i s hi => ⟨_, SS7.sim i s hi⟩)
  rw [hsl] at o8
  have f8 : serializeL p m7 sk (lstates p b states) = some m8 := by
    rw [serializeL, w32_lt (x := 4 * p.n) (by omega), w32_lt (by omega), ← hb, ← e8]
  have G8 : SigsAt p (sigB p b) m8 sga := G7.states o8
  have hcnt : ∀ s ∈ states, s.nextLeaf ≤ 2 ^ p.tree_height := fun s hs => (SS7.cap s hs).2
  have o6' : OnlyIn m5 m6 [(b, extSize p), (pk, p.n)] := by
    refine o6.into ?_
    intro r hr
    simp only [List.mem_cons, List.not_mem_nil, or_false] at hr
    rcases hr with rfl | rfl
    · exact ⟨_, List.mem_cons_self, rfl, hB1.1, by simp only; omega⟩
    · exact ⟨_, List.mem_cons_of_mem _ List.mem_cons_self, rfl, Nat.le_refl _, Nat.le_refl _⟩
  have o8' : OnlyIn m7 m8 [(b, extSize p)] := OnlyIn.ext o8
  have o56 := o5.tr o6'
  refine ⟨m8, ?_, ?_, ?_, ?_, ?_⟩
  · have hls : (lstates p b st0).map (fun s => { s with stackoffset := 0, nextLeaf := 0 }) = lstates p b st1 := by
      apply List.ext_getElem?
      intro i
      rw [List.getElem?_map, lstates_get, lstates_get, hst1, List.getElem?_map]
      cases st0[i]? <;> rfl
    rw [fastXmssmtKeypairL, if_neg (by simp [a1]), a2]
    simp only [Option.bind_eq_bind, Option.bind_some]
    have q1 : (sA ++ sB ++ sC).take (2 * p.n) = sA ++ sB := List.take_left' (by simp; omega)
    have q2 : (sA ++ sB ++ sC).drop (2 * p.n) = sC := List.drop_left' (by simp; omega)
    rw [t1, Option.bind_some, q1, q2, t2, Option.bind_some, w32_lt (x := 3 * p.n) (by omega), w32_lt (x := 2 * p.n) (by omega), t3,
      Option.bind_some, e4, Option.bind_some, hls, eu1, t5, Option.bind_some]
    dsimp only
    rw [lstates_get, esd, Option.map_some, Option.bind_some, t6, Option.bind_some]
    dsimp only
    rw [e7, Option.bind_some, ← lstates_set, ← est, f8]
  · rw [holds_append, hTl]
    refine ⟨((Holds.of_load l6).keep o7 ?_).keep o8' ?_, (((H4.keep o56 ?_).keep o7 ?_).keep o8' ?_)⟩
    all_goals (first | rw [hTl] | rw [hC])
    all_goals dj d1
  · have e9 : (Key.mk sA sB T sC).fast p 0 states sga = (Rfc.toByte 0 p.index_bytes ++ (sA ++ sB) ++ T ++ sC) ++ extBytes states sga := by
      simp [Key.fast, skHead]
    have hz : Rfc.toByte 0 p.index_bytes = List.replicate p.index_bytes 0 := by
      unfold Rfc.toByte
      simp only [Nat.zero_div]
      rw [List.map_const', List.length_range]; rfl
    have hl4 : (List.replicate p.index_bytes (0 : UInt8)).length = p.index_bytes := by simp
    have hAB : (sA ++ sB).length = 2 * p.n := by rw [List.length_append]; omega
    rw [e9, hz]
    generalize List.replicate p.index_bytes (0 : UInt8) = Z at *
    generalize sA ++ sB = AB at *
    rw [holds_append]
    simp only [List.length_append, hl4, hTl, hC, hAB]
    have big : ∀ {q : Ptr} {x : Bytes} {len : Nat}, x.length = len → Holds m4 q x → Disj q len b (extSize p) → Disj q len pk p.n →
        Disj q len (sk + p.index_bytes + 2 * p.n) p.n → Holds m8 q x := by
      intro q x len hl h c1 c2 c3
      refine ((h.keep o56 ?_).keep o7 ?_).keep o8' ?_
      all_goals rw [hl]
      · (dj c1 c2)
      · (dj c3)
      · (dj c1)
    refine ⟨?_, ?_⟩
    · simp only [holds_append, List.length_append, hl4, hTl, hC, hAB]
      refine ⟨⟨⟨?_, ?_⟩, ?_⟩, ?_⟩
      · refine big (len := p.index_bytes) hl4 (((H1.keep o2 ?_).keep o3 ?_).keep o4 ?_) ?_ ?_ ?_
        · rw [hl4]; dj
        · rw [hl4]; dj
        · rw [hl4]; dj d1
        · dj
        · dj d1
        · dj
      · refine big hAB ((H2.keep o3 ?_).keep o4 ?_) ?_ ?_ ?_
        · rw [hAB]; dj
        · rw [hAB]; dj d1
        · dj
        · dj d1
        · dj
      · rw [← add_add]
        refine H7.keep o8' ?_
        rw [hTl]; dj
      · rw [show p.index_bytes + 2 * p.n + p.n = p.index_bytes + 3 * p.n by omega, ← add_add]
        refine big hC (H3.keep o4 ?_) ?_ ?_ ?_
        · rw [hC]; dj d1
        · dj
        · dj d1
        · dj
    · rw [show p.index_bytes + 2 * p.n + p.n + p.n = p.index_bytes + 4 * p.n by omega, extBytes, holds_append]
      refine ⟨H8, ?_⟩
      have hbl2 : ((states.map stateBytes).flatten).length = (2 * p.d - 1) * stSize p := by
        rw [states_length shx.states_mem, hsl, hst]
      rw [hbl2]
      exact G8.holds
  · have into : ∀ {a c : Mem} {q : Ptr} {len : Nat}, OnlyIn a c [(q, len)] → q.blk = sk.blk → sk.off ≤ q.off →
        q.off + len ≤ sk.off + p.sk_bytes → OnlyIn a c [(pk, 2 * p.n), (sk, p.sk_bytes)] :=
      fun h x1 x2 x3 => h.into1 sk p.sk_bytes (by simp) x1 x2 x3
    have o56' : OnlyIn m4 m6 [(pk, 2 * p.n), (sk, p.sk_bytes)] := by
      refine o56.into ?_
      intro r hr
      simp only [List.mem_cons, List.not_mem_nil, or_false] at hr
      rcases hr with rfl | rfl
      · exact ⟨(sk, p.sk_bytes), by simp, rfl, by simp only; omega, by simp only; omega⟩
      · exact ⟨(pk, 2 * p.n), by simp, rfl, Nat.le_refl _, by simp only; omega⟩
    exact ((((((into o1 rfl (Nat.le_refl _) (by omega)).tr (into o2 rfl (by simp only [add_off]; omega) (by simp only [add_off]; omega))).tr
      (into o3 rfl (by simp only [add_off]; omega) (by simp only [add_off]; omega))).tr
      (o4.into1 pk (2 * p.n) (by simp) rfl (by simp only [add_off]; omega) (by simp only [add_off]; omega))).tr o56').tr
      (into o7 rfl (by simp only [add_off]; omega) (by simp only [add_off]; omega))).tr (into o8' bb (by omega) (by omega))
  · rw [Key.fast]
    refine (counted_iff (skHead_length (toByte_length _ _) hA hB hTl hC) shx.len ?_).mpr hcnt
    intro s hs
    exact (shx.states_mem s hs).next_lt

end Xmss.Low
