import Verif.Proof.LowFastLeaf
/-
The pointer-level model of xmss_core_fast.c refines the first model: `treehash_init` and `bds_state_update`.
-/
namespace Xmss.Low

variable {P : Prims} {H : Bytes → Bytes} {p : Params}

theorem IsStk.ne_nil {N : Nat → Nat → Bytes} {j c : Nat} {L : List (Bytes × Nat)} (h : IsStk N j c L) : 0 < c → L ≠ [] := by
  induction h with
  | nil => intro h; omega
  | even _ ih => intro h; exact ih (by omega)
  | odd _ _ => intro _; simp

theorem build3 {N : Nat → Nat → Bytes} {w : BdsState} (b : BuildInv p N 3 w) :
    0 < w.stackoffset ∧ w.stacklevels[w.stackoffset - 1]? = some 0 := by
  obtain ⟨L, hr, hs⟩ := b.stack
  generalize hc : 3 = c at hs
  generalize hj : (0 : Nat) = j at hs
  cases hs with
  | nil => omega
  | even h => omega
  | @odd j m s h =>
    subst hj
    refine ⟨by rw [hr.off]; simp, ?_⟩
    have := RepL.top hr.levels
    rw [hr.off]
    simp only [List.length_cons, Nat.add_sub_cancel]
    rw [List.length_map] at this
    rw [this]

theorem addLeaves_sim (F0 : Fast0 P H p) {md : Mode} {s : LState} (L : LPtrs p md.base s) {skSeed pubSeed : Ptr} {ks ps : Bytes}
    {layer tree : Nat} {N : Nat → Nat → Bytes} (ctx : TreeCtx H p ks ps layer tree N) (h3 : 3 ≤ p.tree_height)
    (hkd : ∀ r ∈ md.ranges p, Disj skSeed p.n r.1 r.2) (hpd : ∀ r ∈ md.ranges p, Disj pubSeed p.n r.1 r.2) :
    ∀ (k c : Nat) (w w' : BdsState) (m : Mem) (lv : Levels) (lt ot nd : Addr) (o1 o2 : Nat), c + k ≤ 2 ^ p.tree_height →
      Sim p md false m lv w → load m skSeed p.n = some ks → load m pubSeed p.n = some ps → BuildInv p N c w →
      IsLtree lt layer tree o1 → IsOts ot layer tree o2 → IsTree nd layer tree →
      addLeaves H p ks ps k c w lt ot nd = some w' →
      ∃ lv' m', addLeavesL P p s md.stk skSeed pubSeed k c lv w.stackoffset m lt ot nd = some m' ∧ OnlyIn m m' (md.ranges p) ∧
        Sim p md false m' lv' w' ∧ BuildInv p N (c + k) w' ∧ ∀ b, lst p b w' = { lst p b w with stackoffset := w'.stackoffset } := by
  intro k
  induction k with
  | zero =>
    intro c w w' m lv lt ot nd o1 o2 hc S hks hps B h1 h2 h4 h
    cases h
    exact ⟨lv, m, rfl, onlyIn_refl _ _, S, B, fun b => rfl⟩
  | succ k ih =>
    intro c w w' m lv lt ot nd o1 o2 hc S hks hps B h1 h2 h4 h
    unfold addLeaves at h
    obtain ⟨r, hr, h⟩ := Option.bind_eq_some_iff.mp h
    obtain ⟨s', lt', ot', nd', e1, B', i1, i2, i3, _, _, _⟩ := addLeaf_eq ctx F0.good.th_lt h3 (by rw [F0.k0]; omega) (c := c) (by omega) B h1 h2 h4
    rw [e1] at hr
    cases hr
    obtain ⟨lv1, m1, f1, f2, S1, f4⟩ := addLeaf_sim F0 L (shr := shr32) (idx := c) (fun k hk => by unfold shr32; rw [if_neg (by omega)]) hkd hpd S hks hps e1
      (fun hc3 _ => by subst hc3; exact build3 B)
    obtain ⟨lv2, m2, g1, g2, S2, g4, g5⟩ := ih (c + 1) s' w' m1 lv1 lt' ot' nd' c c (by omega) S1 (keepLoad f2 hks hkd) (keepLoad f2 hps hpd) B' i1 i2 i3 h
    refine ⟨lv2, m2, ?_, f2.tr g2, S2, by rw [show c + (k + 1) = c + 1 + k by omega]; exact g4, fun b => by rw [g5 b, f4 b]⟩
    unfold addLeavesL
    rw [f1]
    exact g1

theorem resetInstsL_get : ∀ (l : List LInst) (k i : Nat),
    (resetInstsL k l)[i]? = l[i]?.map (fun t => { t with h := w8 (k + i), completed := 1, stackusage := 0 }) := by
  intro l
  induction l with
  | nil => intro k i; simp [resetInstsL]
  | cons t l ih =>
    intro k i
    cases i with
    | zero => simp [resetInstsL]
    | succ i => simp only [resetInstsL, List.getElem?_cons_succ, ih]; congr 2; rw [show k + 1 + i = k + (i + 1) by omega]

theorem reset_lst {b : Ptr} {ts : List TreehashInst} (hl : ts.length ≤ 256) :
    resetInstsL 0 (ts.mapIdx (linst p b)) = (resetInsts 0 ts).mapIdx (linst p b) := by
  apply List.ext_getElem?
  intro i
  rw [resetInstsL_get, List.getElem?_mapIdx, List.getElem?_mapIdx, resetInsts_get]
  cases h : ts[i]? with
  | none => rfl
  | some t =>
    have := (List.getElem?_eq_some_iff.mp h).1
    simp only [Option.map_some, Option.some.injEq, linst, w8, LInst.mk.injEq, and_true]
    omega

/-- The working state of `treehash_init`: the structure with a fresh local stack. -/
def initState (p : Params) (w : BdsState) : BdsState :=
  { w with
    treehash := resetInsts 0 w.treehash
    stack := List.replicate (p.tree_height + 1) (List.replicate p.n 0)
    stacklevels := List.replicate (p.tree_height + 1) 0
    stackoffset := 0 }

theorem initState_inst {w : BdsState} (ft : Fit p w) (hth : p.tree_height < 31) : ∀ t ∈ (initState p w).treehash,
    t.h < 256 ∧ t.stackusage < 256 ∧ t.completed < 256 ∧ t.node.length = p.n := by
  intro t ht
  obtain ⟨i, hi⟩ := List.mem_iff_getElem?.mp ht
  have hi : (resetInsts 0 w.treehash)[i]? = some t := hi
  rw [resetInsts_get] at hi
  obtain ⟨t0, e1, rfl⟩ := Option.map_eq_some_iff.mp hi
  have hlt := (List.getElem?_eq_some_iff.mp e1).1
  rw [ft.insts_len] at hlt
  exact ⟨by simp only; omega, by simp, by simp, (ft.insts_mem _ (List.mem_of_getElem? e1)).2.2.2⟩

theorem initState_fit {w : BdsState} (ft : Fit p w) (hth : p.tree_height < 31) : Fit p (initState p w) :=
  { ft with
    stack_len := by simp [initState]
    stack_mem := by intro x hx; simp [initState] at hx; rw [hx]; simp
    levels_len := by simp [initState]
    levels_mem := by intro x hx; simp [initState] at hx; omega
    insts_len := by show (resetInsts 0 w.treehash).length = _; rw [resetInsts_length]; exact ft.insts_len
    insts_mem := initState_inst ft hth
    off_lt := by simp [initState] }

theorem Fit.shape {w : BdsState} (ft : Fit p w) (hk : p.bds_k = 0) (h1 : ∀ t ∈ w.treehash, t.nextIdx < 2 ^ 32) (h2 : w.nextLeaf < 2 ^ 32) :
    Shape p w :=
  { stack_len := ft.stack_len, stack_mem := ft.stack_mem, levels_len := ft.levels_len, levels_mem := ft.levels_mem,
    auth_len := ft.auth_len, auth_mem := ft.auth_mem, keep_len := ft.keep_len, keep_mem := ft.keep_mem,
    insts_len := by rw [ft.insts_len, Params.insts, hk]; rfl
    insts_mem := fun t ht => ⟨(ft.insts_mem t ht).1, h1 t ht, (ft.insts_mem t ht).2.1, (ft.insts_mem t ht).2.2.1, (ft.insts_mem t ht).2.2.2⟩
    retain_len := by rw [ft.retain_nil, hk]; rfl
    retain_mem := by rw [ft.retain_nil]; simp
    off_lt := ft.off_lt, next_lt := h2 }

theorem Shape.fit {w : BdsState} (sh : Shape p w) (hk : p.bds_k = 0) : Fit p w :=
  { stack_len := sh.stack_len, stack_mem := sh.stack_mem, levels_len := sh.levels_len, levels_mem := sh.levels_mem,
    auth_len := sh.auth_len, auth_mem := sh.auth_mem, keep_len := sh.keep_len, keep_mem := sh.keep_mem,
    insts_len := by rw [sh.insts_len, Params.insts, hk]; rfl
    insts_mem := fun t ht => by have := sh.insts_mem t ht; exact ⟨this.1, this.2.2.1, this.2.2.2.1, this.2.2.2.2⟩
    retain_nil := by have := sh.retain_len; rw [hk] at this; exact List.length_eq_zero_iff.mp this
    off_lt := sh.off_lt }

theorem treehashInit_sim (F0 : Fast0 P H p) (h3 : 3 ≤ p.tree_height) {b node skSeed pubSeed : Ptr} {ks ps : Bytes} {layer tree : Nat}
    {N : Nat → Nat → Bytes} (ctx : TreeCtx H p ks ps layer tree N) {addr : Addr} (ha : IsSub addr layer tree)
    {w w' : BdsState} {m : Mem} {lv : Levels} (S : Sim p (.upd b) false m lv w) (hn1 : ∀ t ∈ w.treehash, t.nextIdx < 2 ^ 32)
    (hn2 : w.nextLeaf < 2 ^ 32) (hks : load m skSeed p.n = some ks)
    (hps : load m pubSeed p.n = some ps) (dk : Disj skSeed p.n b (stSize p)) (dp : Disj pubSeed p.n b (stSize p))
    (hv : Valid m node p.n) (dn : Disj node p.n b (stSize p)) {root : Bytes} (h : treehashInit H p w ks ps addr = some (root, w')) :
    ∃ m', treehashInitL P p m node (lst p b w) skSeed pubSeed addr = some (lst p b w', m') ∧
      OnlyIn m m' [(b, stSize p), (node, p.n)] ∧ load m' node p.n = some root ∧ Sim p (.upd b) false m' lv w' ∧
      (∀ t ∈ w'.treehash, t.nextIdx < 2 ^ 32) ∧ w'.nextLeaf = w.nextLeaf := by
  have hth := F0.good.th_lt
  have hn := F0.good.n_pos
  unfold treehashInit at h
  change (do
    let w1 ← addLeaves H p ks ps (1 <<< p.tree_height) 0 (initState p w) (ltreeOf addr) (otsOf addr) (nodeOf addr)
    let root ← w1.stack[0]?
    some (root, { w1 with stack := w.stack, stacklevels := w.stacklevels, stackoffset := w.stackoffset })) = _ at h
  obtain ⟨w1, hw1, h⟩ := Option.bind_eq_some_iff.mp h
  obtain ⟨rt, hrt, h⟩ := Option.bind_eq_some_iff.mp h
  cases h
  rw [Nat.one_shiftLeft] at hw1
  have hw32 : w32 (p.tree_height + 1) = p.tree_height + 1 := w32_lt (by omega)
  have hmul : w32 ((p.tree_height + 1) * p.n) = (p.tree_height + 1) * p.n := F0.mul_lt (by omega)
  have hpos : 0 < (p.tree_height + 1) * p.n := Nat.mul_pos (by omega) hn
  have bb := S.blk
  have bk := load_blk hks
  have bp := load_blk hps
  have bn := hv.blk
  have hfit := initState_fit S.fit hth
  -- the local stack
  obtain ⟨mA, hmA⟩ : ∃ mA : Mem, mA = m ++ [List.replicate ((p.tree_height + 1) * p.n) none] := ⟨_, rfl⟩
  have hauth : ∀ f x, (∃ j, f = .auth j ∨ f = .keep j) → getF w f = some x → load mA (b + offF p f) (lenF p f) = some x := by
    intro f x _ hg
    have h1 : load m (b + offF p f) (lenF p f) = some x := S.get (f := f) ⟨by simp, trivial⟩ hg
    rw [hmA, load_left (load_blk h1), h1]
  have S0 : Sim p (.ini b m.length) false mA (.loc (List.replicate (p.tree_height + 1) none)) (initState p w) := by
    refine ⟨hfit, ?_, ?_, ?_, ?_⟩
    · intro f x hk hg
      cases f with
      | stack j => exact absurd hk.2 (Nat.not_lt_zero _)
      | lev j => exact hk.2.elim
      | auth j => exact hauth (.auth j) x ⟨j, Or.inl rfl⟩ hg
      | keep j => exact hauth (.keep j) x ⟨j, Or.inr rfl⟩ hg
      | node j =>
        obtain ⟨t, e1, rfl⟩ := Option.map_eq_some_iff.mp hg
        have e1 : (resetInsts 0 w.treehash)[j]? = some t := e1
        rw [resetInsts_get] at e1
        obtain ⟨t0, e2, rfl⟩ := Option.map_eq_some_iff.mp e1
        have h1 : load m (b + offF p (.node j)) p.n = some t0.node := S.get (f := .node j) ⟨by simp, trivial⟩ (by rw [getF, e2]; rfl)
        show load mA (b + offF p (.node j)) p.n = some t0.node
        rw [hmA, load_left (load_blk h1), h1]
    · intro r hr
      simp only [Mode.ranges, List.mem_cons, List.not_mem_nil, or_false] at hr
      rcases hr with rfl | rfl
      · have hv0 : Valid m b (stSize p) := S.room (b, stSize p) (by simp [Mode.ranges])
        have hle : offF p (.auth 0) ≤ stSize p := by simp only [offF, stSize]; omega
        rw [hmA]
        exact (hv0.sub _ _ (by omega)).left
      · rw [hmA]
        exact valid_right (by simp)
    · show b.blk ≠ m.length
      omega
    · exact ⟨_, rfl, by simp, fun j l hj _ => absurd hj (Nat.not_lt_zero _)⟩
  have hle0 : offF p (.auth 0) + (stSize p - offF p (.auth 0)) = stSize p := by simp only [offF, stSize]; omega
  have hdr : ∀ (q : Ptr) (k : Nat), q.blk < m.length → Disj q k b (stSize p) → ∀ r ∈ (Mode.ini b m.length).ranges p, Disj q k r.1 r.2 := by
    intro q k hq hd r hr
    simp only [Mode.ranges, List.mem_cons, List.not_mem_nil, or_false] at hr
    rcases hr with rfl | rfl
    · exact hd.sub _ _ (by omega)
    · exact Disj.of_blk (by show q.blk ≠ m.length; omega)
  have B0 : BuildInv p N 0 (initState p w) := by
    refine ⟨hfit.shape F0.k0 ?_ hn2, ⟨[], ⟨rfl, RepL.nil _, RepL.nil _⟩, IsStk.nil 0⟩, ?_⟩
    · intro t ht
      obtain ⟨i, hi⟩ := List.mem_iff_getElem?.mp ht
      have hi : (resetInsts 0 w.treehash)[i]? = some t := hi
      rw [resetInsts_get] at hi
      obtain ⟨t0, e1, rfl⟩ := Option.map_eq_some_iff.mp hi
      exact hn1 t0 (List.mem_of_getElem? e1)
    · intro i r _ hle
      have : 0 < (2 * r + 2) * 2 ^ i := by positivity
      omega
  have e3 : (lst p b (initState p w)).treehash = resetInstsL 0 (lst p b w).treehash := by
    show _ = resetInstsL 0 (w.treehash.mapIdx (linst p b))
    rw [reset_lst (by rw [S.fit.insts_len]; omega)]; rfl
  have hL : LPtrs p (Mode.ini b m.length).base { lst p b w with treehash := resetInstsL 0 (lst p b w).treehash } := by
    rw [← e3]
    exact ⟨rfl, (lst_ptrs (b := b) hfit.insts_len).node⟩
  obtain ⟨lv', m1, f1, f2, S1, B1, f4⟩ := addLeaves_sim F0 hL ctx h3 (hdr skSeed p.n bk dk) (hdr pubSeed p.n bp dp) (2 ^ p.tree_height) 0 (initState p w) w1
    mA _ (ltreeOf addr) (otsOf addr) (nodeOf addr) 0 0 (by omega) S0 (by rw [hmA, load_left bk, hks]) (by rw [hmA, load_left bp, hps]) B0
    ha.ltree ha.ots ha.node hw1
  -- the root
  have hso1 : 0 < w1.stackoffset := by
    obtain ⟨L, hr, hs⟩ := B1.stack
    rw [hr.off]
    have := IsStk.ne_nil hs (by rw [Nat.zero_add]; positivity)
    exact List.length_pos_iff.mpr this
  have hroot : load m1 ⟨m.length, 0⟩ p.n = some root := by
    have := S1.get (f := .stack 0) ⟨by simp, hso1⟩ hrt
    rw [Mode.ptr_stack, Nat.zero_mul] at this
    exact this
  have hlen1 : m1.length = m.length + 1 := by rw [f2.len, hmA]; simp
  have hv1 : Valid m1 node p.n := by rw [hmA] at f2; exact keepValid f2 hv.left
  obtain ⟨m2, k1⟩ := hv1.store (x := root) (by rw [load_length hroot])
  have hrl := load_length hroot
  have ho2 : OnlyIn m1 m2 [(node, p.n)] := by rw [← hrl]; exact store_onlyIn k1
  have hreg : (lst p b { w1 with stack := w.stack, stacklevels := w.stacklevels, stackoffset := w.stackoffset }) =
      { lst p b w with treehash := resetInstsL 0 (lst p b w).treehash } := by
    have e := f4 b
    have e1 : (lst p b w1).treehash = (lst p b (initState p w)).treehash := by rw [e]
    have e2 : (lst p b w1).nextLeaf = (lst p b (initState p w)).nextLeaf := by rw [e]
    unfold lst at e1 e2 e3 ⊢
    simp only at e1 e2 e3 ⊢
    rw [e1, e2, e3]
    rfl
  have hoA : OnlyIn m (release m m2) [(b, stSize p), (node, p.n)] := by
    have ho : OnlyIn (m ++ [List.replicate ((p.tree_height + 1) * p.n) none]) m2 [(b, stSize p), (node, p.n), (⟨m.length, 0⟩, (p.tree_height + 1) * p.n)] := by
      rw [← hmA]
      refine f2.trans ho2 ?_ ?_
      · rintro x i ⟨r, hr, h1, h2, h4⟩
        simp only [Mode.ranges, List.mem_cons, List.not_mem_nil, or_false] at hr
        rcases hr with rfl | rfl
        · refine ⟨(b, stSize p), by simp, h1, ?_, ?_⟩
          · show b.off ≤ i; have : b.off + offF p (.auth 0) ≤ i := h2; omega
          · show i < b.off + stSize p; have : i < b.off + offF p (.auth 0) + (stSize p - offF p (.auth 0)) := h4; omega
        · exact ⟨_, by simp, h1, h2, h4⟩
      · rintro x i ⟨r, hr, hh⟩
        simp only [List.mem_singleton] at hr
        subst hr
        exact ⟨_, by simp, hh⟩
    refine ho.release ?_
    intro r hr
    simp only [List.mem_cons, List.not_mem_nil, or_false] at hr
    rcases hr with rfl | rfl | rfl
    · simp
    · simp
    · right; exact Nat.le_refl _
  refine ⟨release m m2, ?_, hoA, ?_, ?_, ?_, ?_⟩
  · unfold treehashInitL
    rw [hw32, hmul, alloc_pos hpos]
    simp only [Option.bind_eq_bind, Option.bind_some]
    rw [← hmA, if_neg (by omega)]
    unfold oneShift
    rw [if_neg (by omega), Nat.one_shiftLeft]
    simp only [Option.bind_some]
    rw [show List.replicate (p.tree_height + 1) (none : Option Nat) = List.replicate (p.tree_height + 1) none from rfl]
    have f1' : addLeavesL P p { lst p b w with treehash := resetInstsL 0 (lst p b w).treehash } ⟨m.length, 0⟩ skSeed pubSeed (2 ^ p.tree_height) 0
      (.loc (List.replicate (p.tree_height + 1) none)) 0 mA (ltreeOf addr) (otsOf addr) (nodeOf addr) = some m1 := f1
    rw [f1']
    simp only [Option.bind_some]
    rw [memcpy_of hroot (Or.inr (Disj.of_blk (by show node.blk ≠ m.length; omega))), k1, hreg]
    rfl
  · rw [load_release bn, ← hrl]; exact load_store_self k1
  · have hfr : OnlyIn mA m2 [(b + offF p (.auth 0), stSize p - offF p (.auth 0)), (node, p.n), (⟨m.length, 0⟩, (p.tree_height + 1) * p.n)] := by
      refine f2.trans ho2 ?_ ?_
      · rintro x i ⟨r, hr, hh⟩
        simp only [Mode.ranges, List.mem_cons, List.not_mem_nil, or_false] at hr
        rcases hr with rfl | rfl
        · exact ⟨_, by simp, hh⟩
        · exact ⟨_, by simp, hh⟩
      · rintro x i ⟨r, hr, hh⟩
        simp only [List.mem_singleton] at hr
        subst hr
        exact ⟨_, by simp, hh⟩
    have hold : ∀ f x, (∃ j, f = .stack j ∨ f = .lev j) → getF w f = some x → load m2 (b + offF p f) (lenF p f) = some x := by
      intro f x hf hg
      have h1 : load m (b + offF p f) (lenF p f) = some x := S.get (f := f) ⟨by simp, trivial⟩ hg
      have hok := S.fit.ok hg
      have hle := offF_le hok
      refine keepLoad hfr (by rw [hmA, load_left (load_blk h1)]; exact h1) ?_
      intro r hr
      simp only [List.mem_cons, List.not_mem_nil, or_false] at hr
      rcases hr with rfl | rfl | rfl
      · right; left
        show b.off + offF p f + lenF p f ≤ b.off + offF p (.auth 0)
        obtain ⟨j, rfl | rfl⟩ := hf
        · have := mul_end (n := p.n) hok
          simp only [offF, lenF]; omega
        · simp only [okF] at hok
          simp only [offF, lenF]; omega
      · exact (dn.symm).sub_left _ _ (by omega)
      · exact Disj.of_blk (by show b.blk ≠ m.length; omega)
    have hnew : ∀ f x, (∃ j, f = .auth j ∨ f = .keep j ∨ f = .node j) → getF w1 f = some x → load m2 (b + offF p f) (lenF p f) = some x := by
      intro f x hf hg
      have hok := S1.fit.ok hg
      have hle := offF_le hok
      have h1 : load m1 (b + offF p f) (lenF p f) = some x := by
        obtain ⟨j, rfl | rfl | rfl⟩ := hf
        · exact S1.get (f := .auth j) ⟨by simp, trivial⟩ hg
        · exact S1.get (f := .keep j) ⟨by simp, trivial⟩ hg
        · exact S1.get (f := .node j) ⟨by simp, trivial⟩ hg
      refine keepLoad ho2 h1 ?_
      intro r hr
      simp only [List.mem_singleton] at hr
      subst hr
      exact (dn.symm).sub_left _ _ (by omega)
    have hf' : Fit p { w1 with stack := w.stack, stacklevels := w.stacklevels, stackoffset := w.stackoffset } :=
      { S1.fit with
        stack_len := S.fit.stack_len
        stack_mem := S.fit.stack_mem
        levels_len := S.fit.levels_len
        levels_mem := S.fit.levels_mem
        off_lt := S.fit.off_lt }
    refine ⟨hf', ?_, ?_, trivial, S.levs⟩
    · intro f x hk hg
      show load (release m m2) (b + offF p f) (lenF p f) = some x
      rw [load_release (by exact bb)]
      cases f with
      | stack j => exact hold (.stack j) x ⟨j, Or.inl rfl⟩ hg
      | lev j => exact hold (.lev j) x ⟨j, Or.inr rfl⟩ hg
      | auth j => exact hnew (.auth j) x ⟨j, Or.inl rfl⟩ hg
      | keep j => exact hnew (.keep j) x ⟨j, Or.inr (Or.inl rfl)⟩ hg
      | node j => exact hnew (.node j) x ⟨j, Or.inr (Or.inr rfl)⟩ hg
    · intro r hr
      exact keepValid hoA (S.room r hr)
  · exact fun t ht => (B1.shape.insts_mem t ht).2.1
  · have e2 : (lst p b w1).nextLeaf = (lst p b (initState p w)).nextLeaf := by rw [f4 b]
    exact e2

end Xmss.Low
