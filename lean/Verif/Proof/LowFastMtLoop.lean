import Verif.Proof.LowFastMt
/-
The pointer-level model of the fast implementation: the loop of `xmssmt_core_sign`.
-/
namespace Xmss.Low

set_option linter.unusedSimpArgs false

variable {P : Prims} {H : Bytes → Bytes} {p : Params}

/-- The locals of the loop between two layers. -/
structure VInv (p : Params) (B : Ptr) (m : Mem) (v : MtLocals) (K : Nat) : Prop where
  len : v.states.length = 2 * p.d - 1
  sims : Sims p B m v.states K
  sigs : SigsAt p (sigB p B) m v.sigs
  upd : v.updates < 2 ^ 32
  ots : v.otsAddr.a3 = UInt32.ofNat 0

theorem Disj.ext {q B : Ptr} {k : Nat} (hq : Disj q k B (extSize p)) : Disj q k B ((2 * p.d - 1) * stSize p) := by
  unfold extSize at hq
  rcases hq with h1 | h1
  · exact Or.inl h1
  · right; omega

theorem OnlyIn.ext {m m' : Mem} {B : Ptr} (h : OnlyIn m m' [(B, (2 * p.d - 1) * stSize p)]) : OnlyIn m m' [(B, extSize p)] :=
  h.into1 B (extSize p) (List.mem_singleton.mpr rfl) rfl (Nat.le_refl _) (by unfold extSize; omega)

theorem SigsAt.states {m m' : Mem} {B : Ptr} {sigs : List Bytes} (G : SigsAt p (sigB p B) m sigs) (h : OnlyIn m m' [(B, (2 * p.d - 1) * stSize p)]) :
    SigsAt p (sigB p B) m' sigs := by
  refine G.keep h ?_
  intro r hr
  simp only [List.mem_singleton] at hr
  subst hr
  right; right; exact Nat.le_refl _

set_option maxHeartbeats 1000000 in
theorem mtStep_sim (F0 : Fast0 P H p) {B pS pP : Ptr} {ks ps : Bytes} {v v' : MtLocals} {m : Mem} {idx i K : Nat} (hi : i < p.d)
    (hidx : idx < 2 ^ p.full_height) (V : VInv p B m v K)
    (tS : load m pS p.n = some ks) (tP : load m pP p.n = some ps) (dS : Disj pS p.n B (extSize p)) (dP : Disj pP p.n B (extSize p))
    (hK0 : 2 ^ 32 ≤ K) (hK : K + 2 ^ 32 ≤ 2 ^ 64) (h : mtStep H p ks ps idx i v = some v') :
    ∃ m', mtStepL P p (sigB p B) pS pP idx i (lowV p B m v) = some (lowV p B m' v') ∧ OnlyIn m m' [(B, extSize p)] ∧ VInv p B m' v' (K + 2 ^ 32) := by
  have g := F0.good
  have hfh := g.fh_lt
  have hht := g.height
  have hf63 : 2 ^ p.full_height ≤ 2 ^ 63 := Nat.pow_le_pow_right (by omega) (by omega)
  have h6463 : (2 : Nat) ^ 64 = 2 * 2 ^ 63 := by norm_num
  have hm1 : (i + 1) * p.tree_height ≤ p.full_height := by rw [← hht, Nat.mul_comm]; exact Nat.mul_le_mul_left _ (by omega)
  rw [mtStep] at h
  rw [mtStepL]
  simp only [Option.bind_eq_bind]
  rw [w64_lt (x := (i + 1) * p.tree_height) (by omega), show one64 ((i + 1) * p.tree_height) = some (2 ^ ((i + 1) * p.tree_height)) from if_neg (by omega),
    Option.bind_some, show one64 p.full_height = some (2 ^ p.full_height) from if_neg (by omega), Option.bind_some, w64_lt (x := idx + 1) (by omega)]
  rw [Nat.one_shiftLeft] at h
  by_cases h1 : ¬ ((idx + 1) &&& (2 ^ ((i + 1) * p.tree_height) - 1) = 0)
  · rw [if_pos h1] at h ⊢
    obtain ⟨m', e, o, S, u, sg, l, -, oa⟩ := mtStepInner_sim F0 hi (by omega) V.len V.sims tS tP dS.ext dP.ext V.upd hK0 hK h
    exact ⟨m', e, o.ext, l, S, by rw [sg]; exact V.sigs.states o, u, by rw [oa]; exact V.ots⟩
  rw [if_neg h1] at h ⊢
  by_cases h2 : idx < 2 ^ p.full_height - 1
  · rw [if_pos h2] at h ⊢
    obtain ⟨m', e, o, S, G, u, l, -, oa⟩ := mtStepSwap_sim F0 hi (by omega) V.len V.sims V.sigs V.ots tS tP dS dP V.upd h
    exact ⟨m', e, o, l, S.caps (by omega), G, u, oa⟩
  · rw [if_neg h2] at h ⊢
    cases h
    exact ⟨m, rfl, onlyIn_refl _ _, V.len, V.sims.caps (by omega), V.sigs, V.upd, V.ots⟩

theorem mtLoop_sim (F0 : Fast0 P H p) {B pS pP : Ptr} {ks ps : Bytes} {idx c : Nat} (hc : c = 2 ^ 32) (hidx : idx < 2 ^ p.full_height)
    (dS : Disj pS p.n B (extSize p)) (dP : Disj pP p.n B (extSize p)) : ∀ (k i K : Nat) (v v' : MtLocals) (m : Mem), i + k ≤ p.d →
    VInv p B m v K → load m pS p.n = some ks → load m pP p.n = some ps → c ≤ K → K + k * c ≤ 2 ^ 64 →
    mtLoop H p ks ps idx k i v = some v' →
    ∃ m', mtLoopL P p (sigB p B) pS pP idx k i (lowV p B m v) = some (lowV p B m' v') ∧ OnlyIn m m' [(B, extSize p)] ∧ VInv p B m' v' (K + k * c) := by
  intro k
  induction k with
  | zero => intro i K v v' m hi V tS tP hK0 hK h; cases h; exact ⟨m, rfl, onlyIn_refl _ _, by rw [Nat.zero_mul]; exact V⟩
  | succ k ih =>
    intro i K v v' m hi V tS tP hK0 hK h
    rw [mtLoop] at h
    obtain ⟨v1, hv1, h⟩ := Option.bind_eq_some_iff.mp h
    rw [Nat.succ_mul] at hK
    obtain ⟨m1, e1, o1, V1⟩ := mtStep_sim F0 (by omega) hidx V tS tP dS dP (by rw [← hc]; exact hK0) (by rw [← hc]; omega) hv1
    rw [← hc] at V1
    have k1 : ∀ {q : Ptr} {x}, Disj q p.n B (extSize p) → load m q p.n = some x → load m1 q p.n = some x := by
      intro q x hq hl
      exact keepLoad o1 hl (by intro r hr; simp only [List.mem_singleton] at hr; subst hr; exact hq)
    obtain ⟨m2, e2, o2, V2⟩ := ih (i + 1) (K + c) v1 v' m1 (by omega) V1 (k1 dS tS) (k1 dP tP) (by omega) (by omega) h
    refine ⟨m2, ?_, o1.tr o2, ?_⟩
    · rw [mtLoopL]
      simp only [Option.bind_eq_bind]
      rw [e1, Option.bind_some, e2]
    · rw [Nat.succ_mul, show K + (k * c + c) = K + c + k * c by omega]; exact V2

set_option maxHeartbeats 1000000 in
/-- The traversal of `xmssmt_core_sign`: the first update and the loop. -/
theorem mtTraverse_sim (F0 : Fast0 P H p) {B pS pP : Ptr} {ks ps : Bytes} {idx : Nat} (hidx : idx < 2 ^ p.full_height) {states : List BdsState}
    {sigs : List Bytes} {oa : Addr} {v : MtLocals} {m : Mem} (hl : states.length = 2 * p.d - 1) (S : Sims p B m states (2 ^ 32))
    (G : SigsAt p (sigB p B) m sigs) (ho : oa.a3 = UInt32.ofNat 0)
    (tS : load m pS p.n = some ks) (tP : load m pP p.n = some ps) (dS : Disj pS p.n B (extSize p)) (dP : Disj pP p.n B (extSize p))
    (h : mtTraverse H p ks ps idx states sigs oa = some v) :
    ∃ m', ((if w64 (w64 (1 + idx >>> p.tree_height) * 2 ^ p.tree_height + w32 (idx &&& (2 ^ p.tree_height - 1))) < 2 ^ p.full_height then do
        let next ← (lstates p B states)[p.d]?
        let u ← bdsStateUpdateL P p m next pS pP (setTreeAddr Addr.zero (idx >>> p.tree_height + 1))
        some ((lstates p B states).set p.d u.1, u.2)
      else some (lstates p B states, m) : Option (List LState × Mem)).bind fun q =>
        mtLoopL P p (sigB p B) pS pP idx p.d 0
          { states := q.1, updates := instsL p >>> 1, swap := 0, addr := setTreeAddr Addr.zero (idx >>> p.tree_height + 1), otsAddr := oa, mem := q.2 }) =
        some (lowV p B m' v) ∧ OnlyIn m m' [(B, extSize p)] ∧ VInv p B m' v (2 ^ 32 + p.d * 2 ^ 32) := by
  have g := F0.good
  have hfh := g.fh_lt
  have hth := g.th_lt
  have hht := g.height
  have hf63 : 2 ^ p.full_height ≤ 2 ^ 63 := Nat.pow_le_pow_right (by omega) (by omega)
  have h6463 : (2 : Nat) ^ 64 = 2 * 2 ^ 63 := by norm_num
  have h6463' : (2 : Nat) ^ 32 < 2 ^ 63 := by norm_num
  have hp30 : 2 ^ p.tree_height ≤ 2 ^ 30 := Nat.pow_le_pow_right (by omega) (by omega)
  have hp30' : (2 : Nat) ^ 30 * 4 = 2 ^ 32 := by norm_num
  have hdl : p.d ≤ p.full_height := by rw [← hht]; exact Nat.le_mul_of_pos_left _ g.th_pos
  have hd0 := g.d_pos
  rw [mtTraverse] at h
  obtain ⟨sts, hsts, h⟩ := Option.bind_eq_some_iff.mp h
  rw [Nat.one_shiftLeft] at hsts
  set il := idx &&& (2 ^ p.tree_height - 1) with hil
  set it := idx >>> p.tree_height with hit
  have hill : il < 2 ^ p.tree_height := and_lt_pow _ _
  have hit1 : it * 2 ^ p.tree_height ≤ idx := by rw [hit, Nat.shiftRight_eq_div_pow]; exact Nat.div_mul_le_self _ _
  have hit2 : it ≤ idx := by rw [hit, Nat.shiftRight_eq_div_pow]; exact Nat.div_le_self _ _
  have hexp : (1 + it) * 2 ^ p.tree_height = 2 ^ p.tree_height + it * 2 ^ p.tree_height := by ring
  rw [w32_lt (x := il) (by omega), w64_lt (x := 1 + it) (by omega), w64_lt (by omega)]
  obtain ⟨m1, e1, o1, S1, l1⟩ : ∃ m1, (if (1 + it) * 2 ^ p.tree_height + il < 2 ^ p.full_height then do
        let next ← (lstates p B states)[p.d]?
        let u ← bdsStateUpdateL P p m next pS pP (setTreeAddr Addr.zero (it + 1))
        some ((lstates p B states).set p.d u.1, u.2)
      else some (lstates p B states, m) : Option (List LState × Mem)) = some (lstates p B sts, m1) ∧ OnlyIn m m1 [(B, (2 * p.d - 1) * stSize p)] ∧
      Sims p B m1 sts (2 ^ 32) ∧ sts.length = 2 * p.d - 1 := by
    by_cases hc : (1 + it) * 2 ^ p.tree_height + il < 2 ^ p.full_height
    · rw [if_pos hc] at hsts ⊢
      obtain ⟨nx, hnx, hsts⟩ := Option.bind_eq_some_iff.mp hsts
      obtain ⟨n2, hn2, hsts⟩ := Option.bind_eq_some_iff.mp hsts
      cases hsts
      have hdi : p.d < 2 * p.d - 1 := by rw [← hl]; exact (List.getElem?_eq_some_iff.mp hnx).1
      have hb := stB_in (p := p) (B := B) hdi
      have dB : ∀ {q : Ptr}, Disj q p.n B (extSize p) → Disj q p.n (stB p B p.d) (stSize p) := by
        intro q hq
        rcases hq.ext with h1 | h1
        · exact Or.inl h1
        · right; omega
      have Cn := S.cap nx (List.mem_of_getElem? hnx)
      obtain ⟨m1, e, o, S', n', t'⟩ := bdsStateUpdate_sim F0 (S.sim _ _ hnx) tS tP (dB dS) (dB dP) Cn.2 hn2
      rw [lstates_get, hnx]
      simp only [Option.bind_eq_bind, Option.map_some, Option.bind_some]
      rw [e, Option.bind_some]
      refine ⟨m1, ?_, o.into1 B _ (List.mem_singleton.mpr rfl) rfl hb.1 hb.2, S.upd hnx o S' (lst_caps t' Cn.1) n' (Nat.le_refl _),
        by rw [List.length_set, hl]⟩
      rw [Option.some.injEq, Prod.mk.injEq]
      exact ⟨lstates_set.symm, rfl⟩
    · rw [if_neg hc] at hsts ⊢
      cases hsts
      exact ⟨m, rfl, onlyIn_refl _ _, S, hl⟩
  rw [e1, Option.bind_some]
  have k1 : ∀ {q : Ptr} {x}, Disj q p.n B (extSize p) → load m q p.n = some x → load m1 q p.n = some x := by
    intro q x hq hl
    exact keepLoad o1.ext hl (by intro r hr; simp only [List.mem_singleton] at hr; subst hr; exact hq)
  have hins := F0.insts
  have V1 : VInv p B m1 { states := sts, sigs := sigs, updates := p.insts >>> 1, swap := 0, addr := setTreeAddr Addr.zero (it + 1), otsAddr := oa } (2 ^ 32) :=
    ⟨l1, S1, G.states o1, by
      show p.insts >>> 1 < _
      rw [hins, Nat.shiftRight_eq_div_pow]
      have := Nat.div_le_self p.tree_height (2 ^ 1)
      omega, ho⟩
  have hk : 2 ^ 32 + p.d * 2 ^ 32 ≤ 2 ^ 64 := by
    have h1 : p.d * 2 ^ 32 ≤ 64 * 2 ^ 32 := Nat.mul_le_mul_right _ (by omega)
    have h2 : 2 ^ 32 + 64 * 2 ^ 32 ≤ 2 ^ 64 := by norm_num
    exact le_trans (Nat.add_le_add_left h1 _) h2
  obtain ⟨m2, e2, o2, V2⟩ := mtLoop_sim F0 rfl hidx dS dP p.d 0 _ _ _ m1 (by omega) V1 (k1 dS tS) (k1 dP tP) (Nat.le_refl _) hk h
  refine ⟨m2, ?_, o1.ext.tr o2, V2⟩
  rw [← e2]
  unfold lowV
  rw [show instsL p = p.insts by rw [F0.instsL, hins]]

end Xmss.Low
