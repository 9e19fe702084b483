import Verif.Proof.LowFastPick
/-
The pointer-level model of xmss_core_fast.c refines the first model: `bds_round`.
-/
namespace Xmss.Low

variable {P : Prims} {H : Bytes → Bytes} {p : Params}

theorem tauLoop_sim {leafIdx : Nat} (hth : p.tree_height < 31) : ∀ (k i : Nat), i + k = p.tree_height →
    tauLoopL p leafIdx k i = some (tauLoop leafIdx k i) ∧ tauLoop leafIdx k i ≤ p.tree_height := by
  intro k
  induction k with
  | zero => intro i h; rw [Nat.add_zero] at h; subst h; exact ⟨rfl, Nat.le_refl _⟩
  | succ k ih =>
    intro i h
    unfold tauLoopL tauLoop
    rw [shr64_of (by omega)]
    simp only [Option.bind_eq_bind, Option.bind_some]
    by_cases hc : (leafIdx >>> i) &&& 1 = 0
    · rw [if_pos hc, if_pos hc]; exact ⟨rfl, by omega⟩
    · rw [if_neg hc, if_neg hc]; exact ih _ (by omega)

theorem authLoop_sim (F0 : Fast0 P H p) {b : Ptr} {lv : Levels} {leafIdx : Nat} : ∀ (k i : Nat) (w w' : BdsState) (m : Mem) (s : LState),
    Sim p (.upd b) false m lv w → s = lst p b w → authLoop p leafIdx k i w = some w' →
    ∃ m', authLoopL p s leafIdx k i m = some m' ∧ OnlyIn m m' [(b, stSize p)] ∧ Sim p (.upd b) false m' lv w' ∧ lst p b w' = s ∧
      w'.treehash = w.treehash ∧ w'.nextLeaf = w.nextLeaf := by
  intro k
  induction k with
  | zero => intro i w w' m s S hs h; cases h; exact ⟨m, rfl, onlyIn_refl _ _, S, hs.symm, rfl, rfl⟩
  | succ k ih =>
    intro i w w' m s S hs h
    unfold authLoop at h
    obtain ⟨node, hnode, h⟩ := Option.bind_eq_some_iff.mp h
    obtain ⟨auth, hauth, h⟩ := Option.bind_eq_some_iff.mp h
    have hi : i < p.tree_height := by
      unfold setA at hauth
      split at hauth
      · rename_i hh; rw [S.fit.auth_len] at hh; exact hh
      · cases hauth
    rw [setA_some (by rw [S.fit.auth_len]; exact hi)] at hauth
    cases hauth
    rw [F0.insts, if_pos hi] at hnode
    obtain ⟨t, ht, hnode⟩ := Option.bind_eq_some_iff.mp hnode
    cases hnode
    have hti := S.fit.insts_mem t (List.mem_of_getElem? ht)
    have hld : load m ((Mode.upd b).ptr p (.node i)) p.n = some t.node := S.get (f := .node i) (x := t.node) ⟨by simp, trivial⟩ (by rw [getF, ht]; rfl)
    obtain ⟨m1, e1, o1, S1⟩ := S.putAuth (j := i) hi hti.2.2.2
    unfold authLoopL
    rw [F0.instsL, if_pos hi, F0.mul_lt (by omega)]
    have hg : s.treehash[i]? = some (linst p b i t) := by rw [hs, lst_get, ht]; rfl
    rw [hg]
    simp only [Option.bind_eq_bind, Option.bind_some]
    have hcp : memcpy m (s.auth + i * p.n) (linst p b i t).node p.n = some m1 := by
      have ep : s.auth + i * p.n = (Mode.upd b).ptr p (.auth i) := by rw [Mode.ptr_auth, hs]; rfl
      rw [ep]
      have e2 : (linst p b i t).node = (Mode.upd b).ptr p (.node i) := rfl
      rw [e2, memcpy_of hld (Or.inr (Mode.ptr_disj (md := .upd b) trivial (f := .auth i) (f' := .node i) hi hi (by simp)))]
      exact e1
    rw [hcp]
    simp only [Option.bind_some]
    obtain ⟨m2, f1, f2, f3, f4, f5, f6⟩ := ih (i + 1) _ w' m1 s S1 (by rw [hs]; rfl) h
    exact ⟨m2, f1, o1.tr f2, f3, f4, f5, f6⟩

theorem restartLoop_sim (F0 : Fast0 P H p) {b : Ptr} {lv : Levels} {leafIdx : Nat} (hleaf : leafIdx < 2 ^ p.tree_height) {K : Nat}
    (hK : 2 ^ p.tree_height ≤ K) : ∀ (k i : Nat) (w w' : BdsState) (m : Mem), i + k ≤ p.tree_height →
    Sim p (.upd b) false m lv w → (∀ t ∈ w.treehash, t.nextIdx < K) → restartLoop p leafIdx k i w = some w' →
    restartLoopL p leafIdx k i (lst p b w) = some (lst p b w') ∧ Sim p (.upd b) false m lv w' ∧ (∀ t ∈ w'.treehash, t.nextIdx < K) ∧
      w'.nextLeaf = w.nextLeaf := by
  have hth := F0.good.th_lt
  have h2 : 2 ^ p.tree_height ≤ 2 ^ 30 := Nat.pow_le_pow_right (by omega) (by omega)
  intro k
  induction k with
  | zero => intro i w w' m _ S hcap h; cases h; exact ⟨rfl, S, hcap, rfl⟩
  | succ k ih =>
    intro i w w' m hik S hcap h
    have hi30 : 2 ^ i ≤ 2 ^ 29 := Nat.pow_le_pow_right (by omega) (by omega)
    unfold restartLoop at h
    unfold restartLoopL
    rw [if_neg (by omega)]
    rw [Nat.one_shiftLeft, Nat.one_shiftLeft] at h ⊢
    rw [w32_lt (by omega)]
    dsimp only at h ⊢
    by_cases hc : leafIdx + 1 + 3 * 2 ^ i < 2 ^ p.tree_height
    · rw [if_pos hc] at h ⊢
      obtain ⟨w1, hw1, h⟩ := Option.bind_eq_some_iff.mp h
      obtain ⟨t, ht, hw1⟩ := Option.bind_eq_some_iff.mp hw1
      cases hw1
      have hti := S.fit.insts_mem t (List.mem_of_getElem? ht)
      rw [lst_get, ht]
      simp only [Option.bind_eq_bind, Option.map_some, Option.bind_some]
      have ft := S.fit.inst (j := i) (t := { t with h := i, nextIdx := leafIdx + 1 + 3 * 2 ^ i, completed := 0, stackusage := 0 })
        ⟨by show i < 256; omega, by simp, by simp, hti.2.2.2⟩
      have S1 := S.reW ft (by
        intro f y hg
        rcases getF_node hg with ⟨a1, a2⟩ | ⟨_, a⟩
        · rw [a1, a2, getF, ht]; rfl
        · exact a)
      obtain ⟨f1, f2, f3, f4⟩ := ih (i + 1) _ w' m (by omega) S1 (forall_mem_set hcap (by show leafIdx + 1 + 3 * 2 ^ i < K; omega)) h
      refine ⟨?_, f2, f3, f4⟩
      rw [← f1]
      congr 1
      unfold lst
      simp only [LState.mk.injEq, true_and, and_true]
      rw [lst_set, w8, Nat.mod_eq_of_lt (by omega)]
      rfl
    · rw [if_neg hc] at h ⊢
      simp only [Option.bind_eq_bind, Option.bind_some] at h ⊢
      exact ih (i + 1) w w' m (by omega) S hcap h

theorem bdsRound_sim (F0 : Fast0 P H p) {b skSeed pubSeed : Ptr} {ks ps : Bytes} {addr : Addr} {w w' : BdsState} {m : Mem} {lv : Levels}
    (S : Sim p (.upd b) false m lv w) (hks : load m skSeed p.n = some ks) (hps : load m pubSeed p.n = some ps)
    (dk : Disj skSeed p.n b (stSize p)) (dp : Disj pubSeed p.n b (stSize p)) {leafIdx K : Nat} (hleaf : leafIdx < 2 ^ p.tree_height)
    (hcap : ∀ t ∈ w.treehash, t.nextIdx < K) (hK : 2 ^ p.tree_height ≤ K)
    (h : bdsRound H p w leafIdx ks ps addr = some w') :
    ∃ m', bdsRoundL P p m (lst p b w) leafIdx skSeed pubSeed addr = some (lst p b w', m') ∧ OnlyIn m m' [(b, stSize p)] ∧
      Sim p (.upd b) false m' lv w' ∧ (∀ t ∈ w'.treehash, t.nextIdx < K) ∧ w'.nextLeaf = w.nextLeaf := by
  have hth := F0.good.th_lt
  have hn := F0.good.n_pos
  have hnlt := (fits_of_good F0.good).n_lt
  have bb := S.blk
  have bk := load_blk hks
  have bp := load_blk hps
  obtain ⟨tau, htau⟩ : ∃ tau, tau = tauLoop leafIdx p.tree_height 0 := ⟨_, rfl⟩
  obtain ⟨hT, hTle⟩ := tauLoop_sim (leafIdx := leafIdx) hth p.tree_height 0 (by omega)
  rw [← htau] at hT hTle
  unfold bdsRound at h
  rw [← htau] at h
  obtain ⟨buf, hbuf, h⟩ := Option.bind_eq_some_iff.mp h
  obtain ⟨w1, hw1, h⟩ := Option.bind_eq_some_iff.mp h
  obtain ⟨mA, hmA⟩ : ∃ mA : Mem, mA = m ++ [List.replicate (2 * p.n) none] := ⟨_, rfl⟩
  have hvA : Valid mA ⟨m.length, 0⟩ (2 * p.n) := by rw [hmA]; exact valid_right (by simp)
  have hksA : load mA skSeed p.n = some ks := by rw [hmA, load_left bk, hks]
  have hpsA : load mA pubSeed p.n = some ps := by rw [hmA, load_left bp, hps]
  have SA : Sim p (.upd b) false mA lv w := by rw [hmA]; exact S.append
  have dS : ∀ r ∈ [((⟨m.length, 0⟩ : Ptr), 2 * p.n)], Disj b (stSize p) r.1 r.2 := by
    intro r hr; rw [List.mem_singleton] at hr; subst hr; exact Disj.of_blk (by show b.blk ≠ m.length; omega)
  have dB : ∀ {q : Ptr} {k : Nat}, q.blk < m.length → ∀ r ∈ [((⟨m.length, 0⟩ : Ptr), 2 * p.n)], Disj q k r.1 r.2 := by
    intro q k hq r hr; rw [List.mem_singleton] at hr; subst hr; exact Disj.of_blk (by show q.blk ≠ m.length; omega)
  have dD : ∀ {q : Ptr} {k : Nat}, Disj q k b (stSize p) → ∀ r ∈ [(b, stSize p)], Disj q k r.1 r.2 := by
    intro q k hq r hr; rw [List.mem_singleton] at hr; subst hr; exact hq
  have dN : ∀ {k : Nat}, ∀ r ∈ [(b, stSize p)], Disj (⟨m.length, 0⟩ : Ptr) k r.1 r.2 := by
    intro k; exact dD (Disj.of_blk (by show m.length ≠ b.blk; omega))
  have hrel : ∀ m3 m4, OnlyIn mA m3 [((⟨m.length, 0⟩ : Ptr), 2 * p.n)] → OnlyIn m3 m4 [(b, stSize p)] →
      OnlyIn m (release m m4) [(b, stSize p)] := by
    intro m3 m4 o1 o2
    have : OnlyIn (m ++ [List.replicate (2 * p.n) none]) m4 [(b, stSize p), (⟨m.length, 0⟩, 2 * p.n)] := by
      rw [← hmA]
      exact (o1.sub (by simp)).tr (o2.sub (by simp))
    refine this.release ?_
    intro r hr
    simp only [List.mem_cons, List.not_mem_nil, or_false] at hr
    rcases hr with rfl | rfl
    · simp
    · right; exact Nat.le_refl _
  -- the buffer
  have step1 : ∃ m1, (if 0 < tau then do
        let m ← memcpy mA ⟨m.length, 0⟩ ((lst p b w).auth + w32 (usub tau 1 * p.n)) p.n
        memcpy m ((⟨mA.length - 1, 0⟩ : Ptr) + p.n) ((lst p b w).keep + w32 ((usub tau 1 >>> 1) * p.n)) p.n
      else some mA : Option Mem) = some m1 ∧ OnlyIn mA m1 [((⟨m.length, 0⟩ : Ptr), 2 * p.n)] ∧
      (0 < tau → load m1 ⟨m.length, 0⟩ (2 * p.n) = some buf) := by
    have hlen : mA.length - 1 = m.length := by rw [hmA]; simp
    rw [hlen]
    by_cases h0 : 0 < tau
    · rw [if_pos h0] at hbuf ⊢
      obtain ⟨a, ha, hbuf⟩ := Option.bind_eq_some_iff.mp hbuf
      obtain ⟨k, hk, hbuf⟩ := Option.bind_eq_some_iff.mp hbuf
      cases hbuf
      have hal := SA.fit.auth_mem _ (List.mem_of_getElem? ha)
      have hkl := SA.fit.keep_mem _ (List.mem_of_getElem? hk)
      have hk2 : (tau - 1) >>> 1 ≤ tau - 1 := by rw [Nat.shiftRight_eq_div_pow]; exact Nat.div_le_self _ _
      have la : load mA ((Mode.upd b).ptr p (.auth (tau - 1))) p.n = some a := SA.get (f := .auth (tau - 1)) (x := a) ⟨by simp, trivial⟩ ha
      have lk : load mA ((Mode.upd b).ptr p (.keep ((tau - 1) >>> 1))) p.n = some k := SA.get (f := .keep ((tau - 1) >>> 1)) (x := k) ⟨by simp, trivial⟩ hk
      rw [usub_eq (by omega) (by omega), F0.mul_lt (by omega), F0.mul_lt (by omega)]
      have ea : (lst p b w).auth + (tau - 1) * p.n = (Mode.upd b).ptr p (.auth (tau - 1)) := by rw [Mode.ptr_auth]; rfl
      have ek : (lst p b w).keep + ((tau - 1) >>> 1) * p.n = (Mode.upd b).ptr p (.keep ((tau - 1) >>> 1)) := by rw [Mode.ptr_keep]; rfl
      rw [ea, ek, memcpy_of la (Or.inr (Disj.of_blk (by show m.length ≠ b.blk; omega)))]
      obtain ⟨m1, e1⟩ := (hvA.sub 0 p.n (by omega)).store (x := a) (by omega)
      have e1' : store mA ⟨m.length, 0⟩ a = some m1 := e1
      have o1 : OnlyIn mA m1 [((⟨m.length, 0⟩ : Ptr), 2 * p.n)] :=
        store_in e1' (List.mem_singleton.mpr rfl) rfl (Nat.le_refl _) (by rw [hal]; show 0 + p.n ≤ 0 + _; omega)
      rw [e1']
      simp only [Option.bind_eq_bind, Option.bind_some]
      have lk1 : load m1 ((Mode.upd b).ptr p (.keep ((tau - 1) >>> 1))) p.n = some k := (SA.keep o1 dS).get (f := .keep ((tau - 1) >>> 1)) (x := k) ⟨by simp, trivial⟩ hk
      rw [memcpy_of lk1 (Or.inr (Disj.of_blk (by show m.length ≠ b.blk; omega)))]
      obtain ⟨m2, e2⟩ := ((keepValid o1 hvA).sub p.n p.n (by omega)).store (x := k) (by omega)
      have o2 : OnlyIn m1 m2 [((⟨m.length, 0⟩ : Ptr), 2 * p.n)] :=
        store_in e2 (List.mem_singleton.mpr rfl) rfl (Nat.le_add_right _ _) (by rw [hkl]; show 0 + p.n + p.n ≤ 0 + _; omega)
      refine ⟨m2, e2, o1.tr o2, fun _ => ?_⟩
      have l1 : load m2 ⟨m.length, 0⟩ p.n = some a := by
        have := load_store_self e1'
        rw [hal] at this
        rw [load_store_disj e2 (by right; left; show 0 + p.n ≤ 0 + p.n; omega)]
        exact this
      have l2 : load m2 ((⟨m.length, 0⟩ : Ptr) + p.n) p.n = some k := by
        have := load_store_self e2
        rwa [hkl] at this
      have := load_join l1 l2
      rwa [← Nat.two_mul] at this
    · rw [if_neg h0]
      exact ⟨mA, rfl, onlyIn_refl _ _, fun h => absurd h h0⟩
  obtain ⟨m1, q1, o1, lbuf⟩ := step1
  have hlen : mA.length - 1 = m.length := by rw [hmA]; simp
  rw [hlen] at q1
  have S1 := SA.keep o1 dS
  -- keep
  have step2 : ∃ m2, (if (leafIdx >>> (tau + 1)) &&& 1 = 0 ∧ tau < p.tree_height - 1 then
        memcpy m1 ((lst p b w).keep + w32 ((tau >>> 1) * p.n)) ((lst p b w).auth + w32 (tau * p.n)) p.n
      else some m1 : Option Mem) = some m2 ∧ OnlyIn m1 m2 [(b, stSize p)] ∧ Sim p (.upd b) false m2 lv w1 ∧ lst p b w1 = lst p b w ∧
      w1.treehash = w.treehash ∧ w1.nextLeaf = w.nextLeaf := by
    by_cases hc : (leafIdx >>> (tau + 1)) &&& 1 = 0 ∧ tau < p.tree_height - 1
    · rw [if_pos hc] at hw1 ⊢
      obtain ⟨a, ha, hw1⟩ := Option.bind_eq_some_iff.mp hw1
      obtain ⟨kp, hkp, hw1⟩ := Option.bind_eq_some_iff.mp hw1
      cases hw1
      have hk2 : tau >>> 1 ≤ tau := by rw [Nat.shiftRight_eq_div_pow]; exact Nat.div_le_self _ _
      have hkk : tau >>> 1 < p.tree_height / 2 := by
        unfold setA at hkp
        split at hkp
        · rename_i hh; rw [S.fit.keep_len] at hh; exact hh
        · cases hkp
      rw [setA_some (by rw [S.fit.keep_len]; exact hkk)] at hkp
      cases hkp
      have hal := S.fit.auth_mem _ (List.mem_of_getElem? ha)
      have la : load m1 ((Mode.upd b).ptr p (.auth tau)) p.n = some a := S1.get (f := .auth tau) (x := a) ⟨by simp, trivial⟩ ha
      obtain ⟨m2, e2, o2, S2⟩ := S1.putKeep (j := tau >>> 1) hkk hal
      refine ⟨m2, ?_, o2, S2, rfl, rfl, rfl⟩
      rw [F0.mul_lt (by omega), F0.mul_lt (by omega)]
      have ea : (lst p b w).auth + tau * p.n = (Mode.upd b).ptr p (.auth tau) := by rw [Mode.ptr_auth]; rfl
      have ek : (lst p b w).keep + (tau >>> 1) * p.n = (Mode.upd b).ptr p (.keep (tau >>> 1)) := by rw [Mode.ptr_keep]; rfl
      rw [ea, ek, memcpy_of la (Or.inr (Mode.ptr_disj (md := .upd b) trivial (f := .keep (tau >>> 1)) (f' := .auth tau) hkk (by show tau < _; omega) (by simp)))]
      exact e2
    · rw [if_neg hc] at hw1 ⊢
      cases hw1
      exact ⟨m1, rfl, onlyIn_refl _ _, S1, rfl, rfl, rfl⟩
  obtain ⟨m2, q2, o2, S2, hlst, htr, hnl⟩ := step2
  have hks2 := keepLoad o2 (keepLoad o1 hksA (dB bk)) (dD dk)
  have hps2 := keepLoad o2 (keepLoad o1 hpsA (dB bp)) (dD dp)
  unfold bdsRoundL
  rw [w32_lt (x := 2 * p.n) (by omega), alloc_pos (by omega)]
  simp only [Option.bind_eq_bind, Option.bind_some]
  rw [← hmA, hT]
  simp only [Option.bind_some]
  simp only [Option.bind_eq_bind] at q1
  rw [q1]
  simp only [Option.bind_some]
  rw [w32_lt (x := tau + 1) (by omega), shr64_of (by omega)]
  simp only [Option.bind_some]
  rw [usub_eq (a := p.tree_height) (by have := F0.good.th_pos; omega) (by omega), q2]
  simp only [Option.bind_some]
  by_cases h0 : tau = 0
  · rw [if_pos h0] at h ⊢
    obtain ⟨g, hg⟩ : ∃ g, g = Xmss.genLeafWots H p ks ps (setLtreeAddr (ltreeOf addr) leafIdx) (setOtsAddr (otsOf addr) leafIdx) := ⟨_, rfl⟩
    rw [← hg] at h
    obtain ⟨auth, hauth, h⟩ := Option.bind_eq_some_iff.mp h
    have hthp := F0.good.th_pos
    rw [setA_some (by rw [S2.fit.auth_len]; omega)] at hauth
    cases hauth
    cases h
    have hva := S2.valid (f := .auth 0) (by show 0 < _; omega) trivial
    obtain ⟨hgl, m3, e1, e2⟩ := genLeafWots_of F0.hash F0.hlen F0.good hks2 hps2 (leaf := (lst p b w).auth) hva
      (setLtreeAddr (ltreeOf addr) leafIdx) (setOtsAddr (otsOf addr) leafIdx)
    rw [← hg] at hgl e1 e2
    rw [e2]
    simp only [Option.bind_some]
    obtain ⟨m3', k1, o3, S3⟩ := S2.putAuth (j := 0) (x := g.1) (by omega) hgl
    have : m3' = m3 := by
      have : store m2 (lst p b w).auth g.1 = some m3' := k1
      rw [this] at e1; cases e1; rfl
    subst this
    refine ⟨release m m3', ?_, hrel _ _ o1 (o2.tr o3), (S3.ghost (w1.leaves + 1)).release bb, by rw [show _ = w1.treehash from rfl, htr]; exact hcap, hnl⟩
    rw [← hlst]
    rfl
  · rw [if_neg h0] at h ⊢
    obtain ⟨t, ht⟩ : ∃ t, t = Xmss.thashH H p buf ps (setTreeIndex (setTreeHeight (nodeOf addr) (tau - 1)) (leafIdx >>> tau)) := ⟨_, rfl⟩
    rw [← ht] at h
    obtain ⟨auth, hauth, h⟩ := Option.bind_eq_some_iff.mp h
    have htt : tau < p.tree_height := by
      unfold setA at hauth
      split at hauth
      · rename_i hh; rw [S2.fit.auth_len] at hh; exact hh
      · cases hauth
    rw [setA_some (by rw [S2.fit.auth_len]; exact htt)] at hauth
    cases hauth
    have htl : t.1.length = p.n := by rw [ht]; exact F0.hlen _
    rw [shr64_of (by omega)]
    simp only [Option.bind_some]
    have lb2 : load m2 ⟨m.length, 0⟩ (2 * p.n) = some buf := keepLoad o2 (lbuf (by omega)) dN
    have hva := S2.valid (f := .auth tau) htt trivial
    rw [usub_eq (a := tau) (by omega) (by omega), F0.mul_lt (by omega)]
    have ea : (lst p b w).auth + tau * p.n = (Mode.upd b).ptr p (.auth tau) := by rw [Mode.ptr_auth]; rfl
    rw [ea, thashH_of F0.hash F0.hlen (fits_of_good F0.good) lb2 hps2 hva.blk, ← ht]
    obtain ⟨m3, k1, o3, S3⟩ := S2.putAuth (j := tau) (x := t.1) htt htl
    rw [k1]
    simp only [Option.map_some, Option.bind_some]
    obtain ⟨w3, hw3, h⟩ := Option.bind_eq_some_iff.mp h
    obtain ⟨m4, f1, o4, S4, f4, f5, f6⟩ := authLoop_sim F0 tau 0 _ w3 m3 (lst p b w) S3 (by rw [← hlst]; rfl) hw3
    rw [f1]
    simp only [Option.bind_some]
    rw [F0.insts, if_pos htt] at h
    rw [F0.instsL, if_pos htt, ← f4]
    obtain ⟨g1, g2, g3, g4⟩ := restartLoop_sim F0 hleaf hK tau 0 w3 w' m4 (by omega) S4
      (by rw [f5, show _ = w1.treehash from rfl, htr]; exact hcap) h
    rw [g1]
    simp only [Option.bind_some]
    exact ⟨release m m4, rfl, hrel _ _ o1 ((o2.tr o3).tr o4), g2.release bb, g3, by rw [g4, f6]; exact hnl⟩

end Xmss.Low
