import Verif.Proof.LowFastPut
/-
The pointer-level model of xmss_core_fast.c refines the first model: adding a leaf (lines 247-276 and 397-428).
-/
namespace Xmss.Low

variable {P : Prims} {H : Bytes → Bytes} {p : Params}

/-- What the functions of the fast implementation need from the parameters (all registered sets have `bds_k` = 0). -/
structure Fast0 (P : Prims) (H : Bytes → Bytes) (p : Params) : Prop where
  good : p.Good
  k0 : p.bds_k = 0
  hash : Xmss.coreHash P p.func p.n = some H
  hlen : ∀ x, (H x).length = p.n

theorem Fast0.insts (F0 : Fast0 P H p) : p.insts = p.tree_height := by unfold Params.insts; rw [F0.k0]; rfl
theorem Fast0.instsL (F0 : Fast0 P H p) : instsL p = p.tree_height := by
  have := F0.good.th_lt
  unfold Low.instsL; rw [F0.k0, usub_eq (by omega) (by omega)]; rfl

theorem Fast0.mul_lt (F0 : Fast0 P H p) {j : Nat} (h : j ≤ p.tree_height + 1) : w32 (j * p.n) = j * p.n := by
  apply w32_lt
  have h1 := F0.good.th_lt
  have h2 := (fits_of_good F0.good).n_lt
  calc j * p.n ≤ 32 * p.n := Nat.mul_le_mul_right _ (by omega)
    _ < 2 ^ 32 := by omega

theorem storeNode_sim (F0 : Fast0 P H p) {md : Mode} {d : Bool} {m : Mem} {lv : Levels} {w w' : BdsState} (S : Sim p md d m lv w)
    {s : LState} (L : LPtrs p md.base s) {shr : Nat → Nat → Option Nat} {idx nodeh : Nat} (hshr : ∀ k, k < 32 → shr idx k = some (idx >>> k))
    {j : Nat} {top : Bytes} (hj : w.stack[j]? = some top) (hk : md.known d w.stackoffset (.stack j)) (hd : d = true → nodeh = 0 ∧ idx = 3)
    (h : storeNode p w idx nodeh top = some w') :
    ∃ m', storeNodeL p shr m s idx nodeh (md.ptr p (.stack j)) = some m' ∧ OnlyIn m m' (md.ranges p) ∧ Sim p md false m' lv w' ∧
      nodeh < p.tree_height ∧ SameStack w w' ∧ (∀ b, lst p b w' = lst p b w) := by
  have hI := F0.insts
  have hIL := F0.instsL
  have hth := F0.good.th_lt
  have htop : top.length = p.n := S.fit.stack_mem _ (List.mem_of_getElem? hj)
  have hsj : okF p (.stack j) := S.fit.ok (f := .stack j) hj
  have hsrc : load m (md.ptr p (.stack j)) p.n = some top := S.get hk hj
  unfold storeNode at h
  rw [hI] at h
  unfold storeNodeL
  rw [hIL]
  by_cases h1 : idx >>> nodeh = 1
  · rw [if_pos h1] at h
    obtain ⟨au, ha, hw⟩ := Option.bind_eq_some_iff.mp h
    have hlt : nodeh < p.tree_height := by
      unfold setA at ha
      split at ha
      · rename_i hh; rw [S.fit.auth_len] at hh; exact hh
      · cases ha
    rw [setA_some (by rw [S.fit.auth_len]; exact hlt)] at ha
    cases ha
    cases hw
    have hdf : d = false := by
      cases d with
      | false => rfl
      | true => obtain ⟨rfl, rfl⟩ := hd rfl; exact absurd h1 (by decide)
    subst hdf
    obtain ⟨m', e1, e2, e3⟩ := S.putAuth hlt htop
    refine ⟨m', ?_, e2, e3, hlt, ⟨rfl, rfl, rfl, rfl⟩, fun b => rfl⟩
    rw [hshr nodeh (by omega), Option.bind_eq_bind, Option.bind_some, if_pos h1, L.auth, F0.mul_lt (by omega), ← Mode.ptr_auth,
      memcpy_of hsrc (Or.inr (Mode.ptr_disj S.sep (f := .auth nodeh) (f' := .stack j) hlt hsj (by simp)))]
    exact e1
  · rw [if_neg h1] at h
    by_cases h2 : nodeh < p.tree_height ∧ idx >>> nodeh = 3
    · rw [if_pos h2] at h
      obtain ⟨t, ht, hw⟩ := Option.bind_eq_some_iff.mp h
      cases hw
      obtain ⟨ti, f1, f2⟩ := L.node nodeh h2.1
      have hti := S.fit.insts_mem t (List.mem_of_getElem? ht)
      obtain ⟨m', e1, e2, e3⟩ := S.putNode (j := nodeh) (t := { t with node := top }) h2.1 ⟨hti.1, hti.2.1, hti.2.2.1, htop⟩ (fun h => (hd h).1)
      refine ⟨m', ?_, e2, e3, h2.1, ⟨rfl, rfl, rfl, rfl⟩, ?_⟩
      · rw [hshr nodeh (by omega), Option.bind_eq_bind, Option.bind_some, if_neg h1, if_pos h2, f1, Option.bind_eq_bind, Option.bind_some, f2,
          ← Mode.ptr_node, memcpy_of hsrc (Or.inr (Mode.ptr_disj S.sep (f := .node nodeh) (f' := .stack j) h2.1 hsj (by simp)))]
        exact e1
      · intro b
        unfold lst
        dsimp only
        rw [lst_set_node ht]
    · rw [if_neg h2] at h
      by_cases h3 : p.tree_height ≤ nodeh
      · rw [if_pos h3, S.fit.retain_nil] at h
        simp [setA] at h
      · rw [if_neg h3] at h
        cases h
        have hdf : d = false := by
          cases d with
          | false => rfl
          | true => obtain ⟨rfl, rfl⟩ := hd rfl; exact absurd ⟨by omega, by decide⟩ h2
        subst hdf
        refine ⟨m, ?_, onlyIn_refl _ _, S, by omega, ⟨rfl, rfl, rfl, rfl⟩, fun b => rfl⟩
        rw [hshr nodeh (by omega), Option.bind_eq_bind, Option.bind_some, if_neg h1, if_neg h2, if_neg h3]

/-- Weakening: a state whose node 0 is known. -/
theorem Sim.dirty {md : Mode} {d : Bool} {m : Mem} {lv : Levels} {w : BdsState} (S : Sim p md false m lv w) : Sim p md d m lv w :=
  ⟨S.fit, fun f x hk hg => S.rel f x ⟨by simp, hk.2⟩ hg, S.room, S.sep, S.levs⟩

theorem mergeLoop_sim (F0 : Fast0 P H p) {md : Mode} {s : LState} (L : LPtrs p md.base s) {shr : Nat → Nat → Option Nat} {idx : Nat}
    (hshr : ∀ k, k < 32 → shr idx k = some (idx >>> k)) {pubSeed : Ptr} {ps : Bytes} (hpd : ∀ r ∈ md.ranges p, Disj pubSeed p.n r.1 r.2) :
    ∀ (fuel : Nat) (d : Bool) (w w' : BdsState) (m : Mem) (lv : Levels) (a a' : Addr), Sim p md d m lv w → load m pubSeed p.n = some ps →
      w.stackoffset ≤ fuel →
      (d = true → idx = 3 ∧ 1 < w.stackoffset ∧ w.stacklevels[w.stackoffset - 1]? = some 0 ∧ w.stacklevels[w.stackoffset - 2]? = some 0) →
      mergeLoop H p ps idx fuel w a = some (w', a') →
      ∃ lv' m', mergeLoopL P p shr s md.stk pubSeed idx (fuel + 1) lv w.stackoffset m a = some (lv', w'.stackoffset, m', a') ∧
        OnlyIn m m' (md.ranges p) ∧ Sim p md false m' lv' w' ∧ w'.leaves = w.leaves ∧
        ∀ b, lst p b w' = { lst p b w with stackoffset := w'.stackoffset } := by
  have hth := F0.good.th_lt
  have hnlt := (fits_of_good F0.good).n_lt
  intro fuel
  induction fuel with
  | zero =>
    intro d w w' m lv a a' S hps hle hd h
    cases h
    have hdf : d = false := by
      cases d with
      | false => rfl
      | true => have := (hd rfl).2.1; omega
    subst hdf
    refine ⟨lv, m, ?_, onlyIn_refl _ _, S, rfl, fun b => rfl⟩
    unfold mergeLoopL
    rw [if_neg (by omega)]
    rfl
  | succ fuel ih =>
    intro d w w' m lv a a' S hps hle hd h
    unfold mergeLoop at h
    unfold mergeLoopL
    by_cases h1 : w.stackoffset ≤ 1
    · rw [if_pos h1] at h
      cases h
      have hdf : d = false := by
        cases d with
        | false => rfl
        | true => have := (hd rfl).2.1; omega
      subst hdf
      refine ⟨lv, m, ?_, onlyIn_refl _ _, S, rfl, fun b => rfl⟩
      rw [if_neg (by omega)]
      rfl
    · rw [if_neg h1] at h
      obtain ⟨l1, hl1, h⟩ := Option.bind_eq_some_iff.mp h
      obtain ⟨l2, hl2, h⟩ := Option.bind_eq_some_iff.mp h
      have hso : w.stackoffset - 1 < p.tree_height + 1 := by
        have := (List.getElem?_eq_some_iff.mp hl1).1; rw [S.fit.levels_len] at this; exact this
      have u1 : usub w.stackoffset 1 = w.stackoffset - 1 := usub_eq (by omega) S.fit.off_lt
      have u2 : usub w.stackoffset 2 = w.stackoffset - 2 := usub_eq (by omega) S.fit.off_lt
      have g1 := S.lget (j := w.stackoffset - 1) (by omega) hl1
      have g2 := S.lget (j := w.stackoffset - 2) (by omega) hl2
      rw [if_pos (by omega), u1, u2]
      simp only [Option.bind_eq_bind]
      rw [g1, g2]
      simp only [Option.bind_some]
      by_cases h2 : l1 ≠ l2
      · rw [if_pos h2] at h
        cases h
        have hdf : d = false := by
          cases d with
          | false => rfl
          | true =>
            obtain ⟨_, _, f1, f2⟩ := hd rfl
            rw [hl1] at f1; rw [hl2] at f2
            cases f1; cases f2; exact absurd rfl h2
        subst hdf
        refine ⟨lv, m, ?_, onlyIn_refl _ _, S, rfl, fun b => rfl⟩
        rw [if_neg (by simpa using h2)]
      · rw [if_neg h2] at h
        have h2 : l1 = l2 := by simpa using h2
        subst h2
        rw [if_pos (by simp)]
        obtain ⟨top, htop, h⟩ := Option.bind_eq_some_iff.mp h
        obtain ⟨w1, hw1, h⟩ := Option.bind_eq_some_iff.mp h
        obtain ⟨left, hleft, h⟩ := Option.bind_eq_some_iff.mp h
        have hkn : ∀ {d'} {j : Nat}, j < w.stackoffset → md.known d' w.stackoffset (.stack j) := by
          intro d' j hj
          refine ⟨by simp, ?_⟩
          cases md with
          | upd b => trivial
          | ini b M => exact hj
        obtain ⟨m1, e1, e2, S1, hlt, ss, hls⟩ := storeNode_sim F0 S L hshr htop (hkn (by omega))
          (fun hh => ⟨by have := (hd hh).2.2.1; rw [hl1] at this; cases this; rfl, (hd hh).1⟩) hw1
        have eo := ss.off
        rw [eo] at hleft h
        have hps1 : load m1 pubSeed p.n = some ps := keepLoad e2 hps hpd
        have hl1' : w1.stacklevels[w.stackoffset - 1]? = some l1 := by rw [ss.levels]; exact hl1
        have hl2' : w1.stacklevels[w.stackoffset - 2]? = some l1 := by rw [ss.levels]; exact hl2
        have htop' : w1.stack[w.stackoffset - 1]? = some top := by rw [ss.stack]; exact htop
        have g3 := S1.lget (j := w.stackoffset - 1) (by rw [eo]; omega) hl1'
        have e1' : storeNodeL p shr m s idx l1 (md.stk + w32 ((w.stackoffset - 1) * p.n)) = some m1 := by
          rw [F0.mul_lt (by omega), ← Mode.ptr_stack]; exact e1
        rw [e1']
        simp only [Option.bind_some]
        rw [g3]
        simp only [Option.bind_some]
        rw [w32_lt (by omega), hshr _ (by omega)]
        simp only [Option.bind_some]
        rw [F0.mul_lt (j := w.stackoffset - 2) (by omega), ← Mode.ptr_stack]
        have ld2 : load m1 (md.ptr p (.stack (w.stackoffset - 2))) p.n = some left :=
          S1.get (f := .stack _) (by rw [eo]; exact hkn (by omega)) hleft
        have ld1 : load m1 (md.ptr p (.stack (w.stackoffset - 2)) + p.n) p.n = some top := by
          have := S1.get (f := .stack (w.stackoffset - 1)) (by rw [eo]; exact hkn (by omega)) htop'
          rw [Mode.ptr_stack] at this ⊢
          rw [add_add]
          have e : (w.stackoffset - 2) * p.n + p.n = (w.stackoffset - 1) * p.n := by
            rw [show w.stackoffset - 1 = w.stackoffset - 2 + 1 by omega]; ring
          rw [e]; exact this
        have ldj : load m1 (md.ptr p (.stack (w.stackoffset - 2))) (2 * p.n) = some (left ++ top) := by
          have := load_join ld2 ld1
          rwa [← Nat.two_mul] at this
        rw [thashH_of F0.hash F0.hlen (fits_of_good F0.good) ldj hps1 (load_blk ld2)]
        obtain ⟨r, hr⟩ : ∃ r, r = Xmss.thashH H p (left ++ top) ps (setTreeIndex (setTreeHeight a l1) (idx >>> (l1 + 1))) := ⟨_, rfl⟩
        rw [← hr] at h ⊢
        have hrl : r.1.length = p.n := by rw [hr]; exact F0.hlen _
        obtain ⟨m2, f1, f2, S2⟩ := S1.putStack (j := w.stackoffset - 2) (x := r.1) (by omega) hrl
        rw [f1]
        simp only [Option.map_some, Option.bind_some]
        have g4 : lv.get m2 (w.stackoffset - 2) = some l1 := S2.lget (by show _ < w1.stackoffset; rw [eo]; omega) hl2'
        rw [g4]
        simp only [Option.bind_some]
        obtain ⟨lv3, m3, k1, k2, S3⟩ := S2.putLev (j := w.stackoffset - 2) (v := l1 + 1) (so := w.stackoffset - 1) (by omega) (by omega)
          (by have := S.fit.off_lt; omega) (Or.inl (by show _ ≤ w1.stackoffset; rw [eo]; omega))
        rw [k1]
        simp only [Option.bind_some]
        obtain ⟨st, hst, h⟩ := Option.bind_eq_some_iff.mp h
        obtain ⟨lev, hlev, h⟩ := Option.bind_eq_some_iff.mp h
        rw [setA_some (by rw [S1.fit.stack_len]; omega)] at hst
        rw [setA_some (by rw [S1.fit.levels_len]; omega)] at hlev
        cases hst; cases hlev
        have hps3 : load m3 pubSeed p.n = some ps := keepLoad k2 (keepLoad f2 hps1 hpd) hpd
        obtain ⟨lv', m', q1, q2, q3, q4, q5⟩ := ih false _ _ m3 lv3 r.2 a' S3 hps3 (by show w.stackoffset - 1 ≤ fuel; omega) (by simp) h
        refine ⟨lv', m', q1, ((e2.tr f2).tr k2).tr q2, q3, q4.trans ss.leaves, ?_⟩
        intro b
        rw [q5 b, ← hls b]
        rfl

theorem memcpyRaw_of {m : Mem} {dst src : Ptr} {len : Nat} {x : Bytes} (h : load m src len = some x) (hv : Valid m dst len)
    (hd : Disj dst len src len) : memcpyRaw m dst src len = store m dst x := by
  obtain ⟨c, hc, hcl⟩ := hv
  unfold load at h
  obtain ⟨b, hb, hr⟩ := Option.bind_eq_some_iff.mp h
  obtain ⟨A, B, rfl, hA, hx⟩ := read_eq_some.mp hr
  unfold memcpyRaw store
  rw [if_neg (by unfold Disj at hd; omega), hb, hc]
  simp only [Option.bind_eq_bind, Option.bind_some]
  rw [if_pos ⟨by simp; omega, hcl⟩]
  unfold Block.write
  rw [if_pos (by omega), Option.bind_some, ← hA, ← hx]
  simp

theorem memcpyRaw_valid {m : Mem} {dst src : Ptr} {len : Nat} (h : Valid m src len) (hv : Valid m dst len)
    (hd : Disj dst len src len) : ∃ m', memcpyRaw m dst src len = some m' ∧ OnlyIn m m' [(dst, len)] := by
  obtain ⟨c, hc, hcl⟩ := hv
  obtain ⟨b, hb, hbl⟩ := h
  have hlen : ((b.drop src.off).take len).length = len := by simp; omega
  have hst : storeC m dst ((b.drop src.off).take len) =
      some (m.set dst.blk (c.take dst.off ++ (b.drop src.off).take len ++ c.drop (dst.off + len))) := by
    unfold storeC
    rw [hc]
    simp only
    rw [hlen, if_pos hcl]
  refine ⟨_, ?_, by have := storeC_onlyIn hst; rwa [hlen] at this⟩
  unfold memcpyRaw
  rw [if_neg (by unfold Disj at hd; omega), hb, hc]
  simp only [Option.bind_eq_bind, Option.bind_some]
  rw [if_pos ⟨hbl, hcl⟩]

theorem addLeaf_sim (F0 : Fast0 P H p) {md : Mode} {s : LState} (L : LPtrs p md.base s) {shr : Nat → Nat → Option Nat} {idx : Nat}
    (hshr : ∀ k, k < 32 → shr idx k = some (idx >>> k)) {skSeed pubSeed : Ptr} {ks ps : Bytes}
    (hkd : ∀ r ∈ md.ranges p, Disj skSeed p.n r.1 r.2) (hpd : ∀ r ∈ md.ranges p, Disj pubSeed p.n r.1 r.2)
    {w : BdsState} {m : Mem} {lv : Levels} (S : Sim p md false m lv w) (hks : load m skSeed p.n = some ks) (hps : load m pubSeed p.n = some ps)
    {lt ot nd : Addr} {r : BdsState × Addr × Addr × Addr} (h : addLeaf H p ks ps idx w lt ot nd = some r)
    (hdirty : idx = 3 → (∃ b M, md = .ini b M) → 0 < w.stackoffset ∧ w.stacklevels[w.stackoffset - 1]? = some 0) :
    ∃ lv' m', addLeafL P p shr s md.stk skSeed pubSeed idx lv w.stackoffset m lt ot nd =
        some (lv', r.1.stackoffset, m', r.2.1, r.2.2.1, r.2.2.2) ∧
      OnlyIn m m' (md.ranges p) ∧ Sim p md false m' lv' r.1 ∧
      ∀ b, lst p b r.1 = { lst p b w with stackoffset := r.1.stackoffset } := by
  have hth := F0.good.th_lt
  have hnlt := (fits_of_good F0.good).n_lt
  unfold addLeaf at h
  obtain ⟨g, hg⟩ : ∃ g, g = Xmss.genLeafWots H p ks ps (setLtreeAddr lt idx) (setOtsAddr ot idx) := ⟨_, rfl⟩
  rw [← hg] at h
  obtain ⟨st, hst, h⟩ := Option.bind_eq_some_iff.mp h
  obtain ⟨lev, hlev, h⟩ := Option.bind_eq_some_iff.mp h
  have hso : w.stackoffset < p.tree_height + 1 := by
    unfold setA at hst
    split at hst
    · rename_i hh; rw [S.fit.stack_len] at hh; exact hh
    · cases hst
  rw [setA_some (by rw [S.fit.stack_len]; omega)] at hst
  rw [setA_some (by rw [S.fit.levels_len]; omega)] at hlev
  cases hst; cases hlev
  have hv : Valid m (md.ptr p (.stack w.stackoffset)) p.n := S.valid (f := .stack _) hso (by cases md <;> trivial)
  obtain ⟨hgl, m1, e1, e2⟩ := genLeafWots_of F0.hash F0.hlen F0.good hks hps hv (setLtreeAddr lt idx) (setOtsAddr ot idx)
  rw [← hg] at hgl e1 e2
  obtain ⟨m1', f1, f2, S1⟩ := S.putStack (j := w.stackoffset) (x := g.1) hso hgl
  rw [e1] at f1
  cases f1
  obtain ⟨lv2, m2, k1, k2, S2⟩ := S1.putLev (j := w.stackoffset) (v := 0) (so := w.stackoffset + 1) hso (by omega) (by omega) (Or.inr ⟨rfl, rfl, by
    intro x hx
    have hx : (w.stack.set w.stackoffset g.1)[w.stackoffset]? = some x := hx
    rw [List.getElem?_set_self (by rw [S.fit.stack_len]; omega)] at hx
    cases hx
    have := load_store_self e1
    rwa [hgl] at this⟩)
  have hps2 : load m2 pubSeed p.n = some ps := keepLoad k2 (keepLoad f2 hps hpd) hpd
  unfold addLeafL
  rw [F0.mul_lt (by omega), ← Mode.ptr_stack, e2]
  simp only [Option.bind_eq_bind, Option.bind_some]
  rw [k1]
  simp only [Option.bind_some]
  rw [w32_lt (x := w.stackoffset + 1) (by omega), F0.instsL]
  simp only [F0.insts] at h
  -- the copy of lines 253-255
  by_cases hc : 0 < p.tree_height ∧ idx = 3
  · rw [if_pos hc] at h ⊢
    obtain ⟨w3, hw3, h⟩ := Option.bind_eq_some_iff.mp h
    obtain ⟨stale, hstale, hw3⟩ := Option.bind_eq_some_iff.mp hw3
    obtain ⟨t, ht, hw3⟩ := Option.bind_eq_some_iff.mp hw3
    have hw3 := Option.some.inj hw3
    have hok : okF p (.stack (w.stackoffset + 1)) := S2.fit.ok (f := .stack (w.stackoffset + 1)) hstale
    obtain ⟨ti, q1, q2⟩ := L.node 0 hc.1
    have hti := S2.fit.insts_mem t (List.mem_of_getElem? ht)
    have hsl : stale.length = p.n := S2.fit.stack_mem _ (List.mem_of_getElem? hstale)
    have hdj : Disj (md.ptr p (.node 0)) p.n (md.ptr p (.stack (w.stackoffset + 1))) p.n :=
      Mode.ptr_disj S.sep (f := .node 0) (f' := .stack (w.stackoffset + 1)) hc.1 hok (by simp)
    have hvn : Valid m2 (md.ptr p (.node 0)) p.n := S2.valid (f := .node 0) hc.1 (by cases md <;> trivial)
    rw [q1]
    simp only [Option.bind_some]
    rw [q2, F0.mul_lt (by show _ ≤ _; simp only [okF] at hok; omega), ← Mode.ptr_node, ← Mode.ptr_stack]
    have key : ∃ (d : Bool) (m3 : Mem), memcpyRaw m2 (md.ptr p (.node 0)) (md.ptr p (.stack (w.stackoffset + 1))) p.n = some m3 ∧
        OnlyIn m2 m3 (md.ranges p) ∧ Sim p md d m3 lv2 w3 ∧ (d = true → ∃ b M, md = .ini b M) := by
      cases md with
      | upd b =>
        have hld : load m2 ((Mode.upd b).ptr p (.stack (w.stackoffset + 1))) p.n = some stale :=
          S2.get (f := .stack _) ⟨by simp, trivial⟩ hstale
        obtain ⟨m3, j1, j2, j3⟩ := S2.putNode (j := 0) (t := { t with node := stale }) hc.1 ⟨hti.1, hti.2.1, hti.2.2.1, hsl⟩ (by simp)
        refine ⟨false, m3, by rw [memcpyRaw_of hld hvn hdj]; exact j1, j2, ?_, by simp⟩
        rw [← hw3]; exact j3.ghost (w.leaves + 1)
      | ini b M =>
        have hvs : Valid m2 ((Mode.ini b M).ptr p (.stack (w.stackoffset + 1))) p.n := S2.valid (f := .stack _) hok trivial
        obtain ⟨m3, j1, j2⟩ := memcpyRaw_valid hvs hvn hdj
        have hle := offF_le (p := p) (f := .node 0) hc.1
        have j2' : OnlyIn m2 m3 ((Mode.ini b M).ranges p) := by
          refine j2.mono ?_
          intro x i hw
          rw [within_one] at hw
          refine ⟨(b + offF p (.auth 0), stSize p - offF p (.auth 0)), by simp [Mode.ranges], hw.1, ?_, ?_⟩
          · show b.off + offF p (.auth 0) ≤ i; have : b.off + offF p (.node 0) ≤ i := hw.2.1; simp only [offF] at this ⊢; omega
          · show i < b.off + offF p (.auth 0) + (stSize p - offF p (.auth 0))
            have : i < b.off + offF p (.node 0) + p.n := hw.2.2
            simp only [lenF, offF] at hle this ⊢; omega
        refine ⟨true, m3, j1, j2', ⟨?_, ?_, fun r hr => keepValid j2 (S2.room r hr), S2.sep, ?_⟩, fun _ => ⟨b, M, rfl⟩⟩
        · rw [← hw3]; exact Fit.leaves (S2.fit.inst (t := { t with node := stale }) (j := 0) ⟨hti.1, hti.2.1, hti.2.2.1, hsl⟩)
        · intro f x hk hgf
          rw [← hw3] at hk hgf
          have hne : f ≠ .node 0 := hk.1 rfl
          rcases getF_node (w := { w with stack := w.stack.set w.stackoffset g.1, stacklevels := w.stacklevels.set w.stackoffset 0, stackoffset := w.stackoffset + 1, leaves := w.leaves + 1 })
            (j := 0) (t := { t with node := stale }) hgf with a | ⟨_, a⟩
          · exact absurd a.1 hne
          · have := (S2.ghost (w.leaves + 1)).get ⟨by simp, hk.2⟩ a
            refine keepLoad j2 this ?_
            intro r hr
            rw [List.mem_singleton] at hr
            subst hr
            exact Mode.ptr_disj S.sep ((S2.ghost (w.leaves + 1)).fit.ok a) (f' := .node 0) hc.1 hne
        · rw [← hw3]; exact S2.levs
    obtain ⟨d, m3, j1, j2, S3, jd⟩ := key
    rw [j1]
    simp only [Option.bind_some]
    have hps3 : load m3 pubSeed p.n = some ps := keepLoad j2 hps2 hpd
    have eo : w3.stackoffset = w.stackoffset + 1 := by rw [← hw3]
    obtain ⟨rr, hrr, h⟩ := Option.bind_eq_some_iff.mp h
    have hdd : d = true → idx = 3 ∧ 1 < w3.stackoffset ∧ w3.stacklevels[w3.stackoffset - 1]? = some 0 ∧
        w3.stacklevels[w3.stackoffset - 2]? = some 0 := by
      intro hd
      obtain ⟨a1, a2⟩ := hdirty hc.2 (jd hd)
      rw [eo]
      refine ⟨hc.2, by omega, ?_, ?_⟩
      · rw [← hw3]
        show (w.stacklevels.set w.stackoffset 0)[w.stackoffset + 1 - 1]? = _
        rw [Nat.add_sub_cancel, List.getElem?_set_self (by rw [S.fit.levels_len]; omega)]
      · rw [← hw3]
        show (w.stacklevels.set w.stackoffset 0)[w.stackoffset + 1 - 2]? = _
        rw [List.getElem?_set_ne (by omega), show w.stackoffset + 1 - 2 = w.stackoffset - 1 by omega]
        exact a2
    obtain ⟨lv', m', n1, n2, n3, _, n5⟩ := mergeLoop_sim F0 L hshr hpd w3.stackoffset d w3 rr.1 m3 lv2 nd rr.2 S3 hps3 (Nat.le_refl _) hdd hrr
    cases h
    rw [eo] at n1
    rw [n1]
    refine ⟨lv', m', rfl, ((f2.tr k2).tr j2).tr n2, n3, ?_⟩
    intro b
    rw [n5 b, ← hw3]
    unfold lst
    dsimp only
    rw [show (w.treehash.set 0 { t with node := stale }).mapIdx (linst p b) = w.treehash.mapIdx (linst p b) from lst_set_node ht _]
  · rw [if_neg hc] at h ⊢
    simp only [Option.bind_some] at h ⊢
    obtain ⟨w3, hw3, h⟩ := Option.bind_eq_some_iff.mp h
    cases hw3
    obtain ⟨rr, hrr, h⟩ := Option.bind_eq_some_iff.mp h
    obtain ⟨lv', m', n1, n2, n3, _, n5⟩ := mergeLoop_sim F0 L hshr hpd (w.stackoffset + 1) false _ rr.1 m2 lv2 nd rr.2
      (S2.ghost (w.leaves + 1)) hps2 (Nat.le_refl _) (by simp) hrr
    cases h
    rw [n1]
    refine ⟨lv', m', rfl, (f2.tr k2).tr n2, n3, ?_⟩
    intro b
    rw [n5 b]
    rfl

end Xmss.Low
