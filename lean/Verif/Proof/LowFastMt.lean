import Verif.Proof.LowFastDeep
import Verif.Proof.MtLoop
/-
The pointer-level model of the fast implementation: the traversal in `xmssmt_core_sign`.
-/
namespace Xmss.Low

set_option linter.unusedSimpArgs false

variable {P : Prims} {H : Bytes → Bytes} {p : Params}

theorem Fast0.n8 (F0 : Fast0 P H p) : 8 ≤ p.n := by
  have h := F0.hash
  unfold Xmss.coreHash at h
  split at h
  · omega
  split at h
  · omega
  split at h
  · omega
  split at h
  · omega
  split at h
  · omega
  split at h
  · omega
  split at h
  · omega
  · cases h

/-- The base of state `i`. -/
abbrev stB (p : Params) (B : Ptr) (i : Nat) : Ptr := B + i * stSize p

/-- All states of a key. -/
structure Sims (p : Params) (B : Ptr) (m : Mem) (l : List BdsState) (K : Nat) : Prop where
  sim : ∀ i w, l[i]? = some w → Sim p (.upd (stB p B i)) false m (.mem (stB p B i + offF p (.lev 0))) w
  cap : ∀ w ∈ l, (∀ t ∈ w.treehash, t.nextIdx < K) ∧ w.nextLeaf ≤ 2 ^ p.tree_height

theorem stB_disj {B : Ptr} {i j : Nat} (h : i ≠ j) : Disj (stB p B i) (stSize p) (stB p B j) (stSize p) := by
  have := mul_apart (n := stSize p) (k := stSize p) h (Nat.le_refl _)
  right
  show B.off + i * stSize p + stSize p ≤ B.off + j * stSize p ∨ B.off + j * stSize p + stSize p ≤ B.off + i * stSize p
  omega

theorem stB_in {B : Ptr} {i n : Nat} (h : i < n) : B.off ≤ (stB p B i).off ∧ (stB p B i).off + stSize p ≤ B.off + n * stSize p := by
  have := mul_end (n := stSize p) h
  simp only [add_off]; omega

theorem Sims.keep {B : Ptr} {m m' : Mem} {l : List BdsState} {K : Nat} (h : Sims p B m l K) {rs : List (Ptr × Nat)} (ho : OnlyIn m m' rs)
    (hd : ∀ r ∈ rs, Disj B (l.length * stSize p) r.1 r.2) : Sims p B m' l K := by
  refine ⟨?_, h.cap⟩
  intro i w hi
  refine (h.sim i w hi).keep ho ?_
  intro r hr
  have := stB_in (p := p) (B := B) (List.getElem?_eq_some_iff.mp hi).1
  rcases hd r hr with h1 | h1
  · exact Or.inl h1
  · right; omega

theorem Sims.caps {B : Ptr} {m : Mem} {l : List BdsState} {K K' : Nat} (h : Sims p B m l K) (hK : K ≤ K') : Sims p B m l K' :=
  ⟨h.sim, fun w hw => ⟨fun t ht => lt_of_lt_of_le ((h.cap w hw).1 t ht) hK, (h.cap w hw).2⟩⟩

theorem Sims.upd {B : Ptr} {m m' : Mem} {l : List BdsState} {K K' i : Nat} {w w' : BdsState} (h : Sims p B m l K) (hi : l[i]? = some w)
    (ho : OnlyIn m m' [(stB p B i, stSize p)]) (S : Sim p (.upd (stB p B i)) false m' (.mem (stB p B i + offF p (.lev 0))) w')
    (hc : ∀ t ∈ w'.treehash, t.nextIdx < K') (hn : w'.nextLeaf ≤ 2 ^ p.tree_height) (hK : K ≤ K') : Sims p B m' (l.set i w') K' := by
  have hil := (List.getElem?_eq_some_iff.mp hi).1
  refine ⟨?_, ?_⟩
  · intro j x hj
    rw [List.getElem?_set] at hj
    by_cases hij : i = j
    · subst hij
      rw [if_pos rfl, if_pos hil, Option.some.injEq] at hj
      subst hj
      exact S
    · rw [if_neg hij] at hj
      refine (h.sim j x hj).keep ho ?_
      intro r hr
      simp only [List.mem_singleton] at hr
      subst hr
      exact stB_disj (Ne.symm hij)
  · intro x hx
    rcases List.mem_or_eq_of_mem_set hx with hx | rfl
    · exact (h.caps hK).cap x hx
    · exact ⟨hc, hn⟩

theorem lst_caps {b : Ptr} {w w' : BdsState} {K : Nat} (h : (lst p b w').treehash = (lst p b w).treehash) (hc : ∀ t ∈ w.treehash, t.nextIdx < K) :
    ∀ t ∈ w'.treehash, t.nextIdx < K := by
  intro t ht
  obtain ⟨j, hj⟩ := List.mem_iff_getElem?.mp ht
  have h1 : (lst p b w').treehash[j]? = some (linst p b j t) := by rw [lst_get, hj]; rfl
  rw [h, lst_get] at h1
  obtain ⟨t0, h2, h3⟩ := Option.map_eq_some_iff.mp h1
  have : t0.nextIdx = t.nextIdx := congrArg LInst.nextIdx h3
  rw [← this]
  exact hc t0 (List.mem_of_getElem? h2)

/-- The pointer-level locals. -/
def lowV (p : Params) (B : Ptr) (m : Mem) (v : MtLocals) : MtLocalsL :=
  { states := lstates p B v.states, updates := v.updates, swap := v.swap, addr := v.addr, otsAddr := v.otsAddr, mem := m }

theorem shiftRight_mul_le (idx a b : Nat) : (idx >>> (a + b)) * 2 ^ b ≤ idx := by
  rw [Nat.shiftRight_add, Nat.shiftRight_eq_div_pow _ b]
  calc idx >>> a / 2 ^ b * 2 ^ b ≤ idx >>> a := Nat.div_mul_le_self _ _
    _ ≤ idx := by rw [Nat.shiftRight_eq_div_pow]; exact Nat.div_le_self _ _

theorem and_lt_pow (x k : Nat) : x &&& (2 ^ k - 1) < 2 ^ k := by
  rw [Nat.and_two_pow_sub_one_eq_mod]; exact Nat.mod_lt _ (Nat.two_pow_pos _)

set_option maxHeartbeats 1000000 in
theorem mtStepInner_sim (F0 : Fast0 P H p) {B pS pP : Ptr} {ks ps : Bytes} {v v' : MtLocals} {m : Mem} {idx i K : Nat} (hi : i < p.d)
    (hidx : idx < 2 ^ 63) (hsl : v.states.length = 2 * p.d - 1) (S : Sims p B m v.states K) (tS : load m pS p.n = some ks)
    (tP : load m pP p.n = some ps) (dS : Disj pS p.n B ((2 * p.d - 1) * stSize p)) (dP : Disj pP p.n B ((2 * p.d - 1) * stSize p))
    (hu : v.updates < 2 ^ 32) (hK0 : 2 ^ 32 ≤ K) (hK : K + 2 ^ 32 ≤ 2 ^ 64) (h : mtStepInner H p ks ps idx i v = some v') :
    ∃ m', mtStepInnerL P p pS pP idx i (lowV p B m v) = some (lowV p B m' v') ∧ OnlyIn m m' [(B, (2 * p.d - 1) * stSize p)] ∧
      Sims p B m' v'.states (K + 2 ^ 32) ∧ v'.updates < 2 ^ 32 ∧ v'.sigs = v.sigs ∧ v'.states.length = 2 * p.d - 1 ∧ v'.swap = v.swap ∧
      v'.otsAddr = v.otsAddr := by
  have hth := F0.good.th_lt
  have hfh := F0.good.fh_lt
  have hht := F0.good.height
  have hmi : p.tree_height * (i + 1) ≤ p.full_height := by rw [← hht]; exact Nat.mul_le_mul_left _ hi
  have hmi' : p.tree_height * (i + 1) = p.tree_height * i + p.tree_height := by ring
  have h6463 : (2 : Nat) ^ 64 = 2 * 2 ^ 63 := by norm_num
  have h6463' : (2 : Nat) ^ 32 < 2 ^ 63 := by norm_num
  have hp30 : 2 ^ p.tree_height ≤ 2 ^ 30 := Nat.pow_le_pow_right (by omega) (by omega)
  have hp30' : (2 : Nat) ^ 30 * 4 = 2 ^ 32 := by norm_num
  -- the base of a state
  have dB : ∀ {q : Ptr} {j : Nat}, j < 2 * p.d - 1 → Disj q p.n B ((2 * p.d - 1) * stSize p) → Disj q p.n (stB p B j) (stSize p) := by
    intro q j hj hq
    have := stB_in (p := p) (B := B) hj
    rcases hq with h1 | h1
    · exact Or.inl h1
    · right; omega
  have oB : ∀ {a c : Mem} {j : Nat}, j < 2 * p.d - 1 → OnlyIn a c [(stB p B j, stSize p)] → OnlyIn a c [(B, (2 * p.d - 1) * stSize p)] := by
    intro a c j hj ho
    have := stB_in (p := p) (B := B) hj
    exact ho.into1 B _ (by simp) rfl this.1 this.2
  rw [mtStepInner] at h
  simp only [Option.bind_eq_bind] at h
  obtain ⟨s, hs, h⟩ := Option.bind_eq_some_iff.mp h
  obtain ⟨s1, hs1, h⟩ := Option.bind_eq_some_iff.mp h
  obtain ⟨r, hr, h⟩ := Option.bind_eq_some_iff.mp h
  have Si := S.sim i s hs
  have Ci := S.cap s (List.mem_of_getElem? hs)
  rw [Nat.one_shiftLeft] at hs1 h
  set il := (idx >>> (p.tree_height * i)) &&& (2 ^ p.tree_height - 1) with hil
  set it := idx >>> (p.tree_height * (i + 1)) with hit
  have hill : il < 2 ^ p.tree_height := and_lt_pow _ _
  have hit1 : it * 2 ^ p.tree_height ≤ idx := by rw [hit, hmi']; exact shiftRight_mul_le _ _ _
  have hit2 : it ≤ idx := by rw [hit, Nat.shiftRight_eq_div_pow]; exact Nat.div_le_self _ _
  have hexp : (1 + it) * 2 ^ p.tree_height = 2 ^ p.tree_height + it * 2 ^ p.tree_height := by ring
  -- bds_round
  obtain ⟨m1, e1, o1, S1, c1, n1⟩ : ∃ m1, (if i = (lowV p B m v).swap then bdsRoundL P p (lowV p B m v).mem (lst p (stB p B i) s) il pS pP
        (setTreeAddr (setLayerAddr v.addr i) it) else some (lst p (stB p B i) s, (lowV p B m v).mem) : Option (LState × Mem)) =
        some (lst p (stB p B i) s1, m1) ∧ OnlyIn m m1 [(stB p B i, stSize p)] ∧
      Sim p (.upd (stB p B i)) false m1 (.mem (stB p B i + offF p (.lev 0))) s1 ∧ (∀ t ∈ s1.treehash, t.nextIdx < K) ∧ s1.nextLeaf = s.nextLeaf := by
    rw [show (lowV p B m v).swap = v.swap from rfl, show (lowV p B m v).mem = m from rfl]
    by_cases hc : i = v.swap
    · rw [if_pos hc] at hs1 ⊢
      exact bdsRound_sim F0 Si tS tP (dB (by omega) dS) (dB (by omega) dP) hill Ci.1 (by omega) hs1
    · rw [if_neg hc] at hs1 ⊢
      cases hs1
      exact ⟨m, rfl, onlyIn_refl _ _, Si, Ci.1, rfl⟩
  have kS : ∀ {a c : Mem} {rs} {q : Ptr} {x}, OnlyIn a c rs → rs = [(B, (2 * p.d - 1) * stSize p)] → Disj q p.n B ((2 * p.d - 1) * stSize p) →
      load a q p.n = some x → load c q p.n = some x := by
    intro a c rs q x ho hrs hd hl
    subst hrs
    exact keepLoad ho hl (by intro r hr; simp only [List.mem_singleton] at hr; subst hr; exact hd)
  have O1 := oB (by omega) o1
  -- bds_treehash_update
  obtain ⟨m2, e2, o2, S2, c2, n2⟩ := bdsTreehashUpdate_sim F0 (dB (by omega) dS) (dB (by omega) dP) S1 (kS O1 rfl dS tS) (kS O1 rfl dP tP) c1
    (by omega) hu hr
  have O2 := O1.tr (oB (by omega) o2)
  have S12 : Sims p B m2 (v.states.set i r.1) (K + 2 ^ 32) :=
    S.upd hs (o1.tr o2) S2 (fun t ht => by have := c2 t ht; omega) (by rw [n2, n1]; exact Ci.2) (by omega)
  have hr2 : r.2 < 2 ^ 32 := by
    have := hr
    unfold bdsTreehashUpdate at this
    obtain ⟨q, hq, h'⟩ := Option.bind_eq_some_iff.mp this
    cases h'
    exact charToUnsigned_lt _
  have hsl2 : (v.states.set i r.1).length = 2 * p.d - 1 := by rw [List.length_set, hsl]
  have run : mtStepInnerL P p pS pP idx i (lowV p B m v) = (do
      if (1 + it) * 2 ^ p.tree_height + il < 2 ^ (p.full_height - p.tree_height * i) then
        if 0 < i ∧ 0 < r.2 then do
          let next ← (lstates p B (v.states.set i r.1))[p.d + i]?
          if next.nextLeaf < 2 ^ p.full_height then do
            let u ← bdsStateUpdateL P p m2 next pS pP (setTreeAddr (setTreeAddr (setLayerAddr v.addr i) it) (it + 1))
            some { lowV p B m v with states := (lstates p B (v.states.set i r.1)).set (p.d + i) u.1, updates := r.2 - 1, addr := setTreeAddr (setTreeAddr (setLayerAddr v.addr i) it) (it + 1), mem := u.2 }
          else some { lowV p B m v with states := lstates p B (v.states.set i r.1), updates := r.2, addr := setTreeAddr (setTreeAddr (setLayerAddr v.addr i) it) (it + 1), mem := m2 }
        else some { lowV p B m v with states := lstates p B (v.states.set i r.1), updates := r.2, addr := setTreeAddr (setTreeAddr (setLayerAddr v.addr i) it) (it + 1), mem := m2 }
      else some { lowV p B m v with states := lstates p B (v.states.set i r.1), updates := r.2, addr := setTreeAddr (setTreeAddr (setLayerAddr v.addr i) it) (it + 1), mem := m2 }) := by
    rw [mtStepInnerL]
    simp only [Option.bind_eq_bind]
    rw [show oneShift p = some (2 ^ p.tree_height) by rw [oneShift, if_neg (by omega), Nat.one_shiftLeft], Option.bind_some,
      w64_lt (x := p.tree_height * i) (by omega), w64_lt (x := p.tree_height * (i + 1)) (by omega),
      show shr64 idx (p.tree_height * i) = some (idx >>> (p.tree_height * i)) from if_neg (by omega), Option.bind_some,
      show shr64 idx (p.tree_height * (i + 1)) = some it from if_neg (by omega), Option.bind_some, ← hil, w32_lt (x := il) (by omega),
      show (lowV p B m v).states[i]? = some (lst p (stB p B i) s) by
        show (lstates p B v.states)[i]? = _
        rw [lstates_get, hs]; rfl, Option.bind_some]
    rw [show (lowV p B m v).addr = v.addr from rfl, e1, Option.bind_some]
    dsimp only
    rw [show (lowV p B m v).updates = v.updates from rfl, e2, Option.bind_some]
    dsimp only
    rw [w64_wrap (by omega) (by omega), show one64 (p.full_height - p.tree_height * i) = some (2 ^ (p.full_height - p.tree_height * i)) from if_neg (by omega),
      Option.bind_some, w64_lt (x := 1 + it) (by omega), w64_lt (by omega), show one64 p.full_height = some (2 ^ p.full_height) from if_neg (by omega)]
    rw [show (lowV p B m v).states.set i (lst p (stB p B i) r.1) = lstates p B (v.states.set i r.1) from lstates_set.symm]
    rfl
  rw [run]
  by_cases h1 : (1 + it) * 2 ^ p.tree_height + il < 2 ^ (p.full_height - p.tree_height * i)
  · rw [if_pos h1]
    by_cases h2 : 0 < i ∧ 0 < r.2
    · rw [if_pos h2]
      rw [if_pos ⟨h1, h2⟩] at h
      obtain ⟨nx, hnx, h⟩ := Option.bind_eq_some_iff.mp h
      rw [lstates_get, hnx]
      simp only [Option.bind_eq_bind, Option.map_some, Option.bind_some]
      rw [show (lst p (B + (p.d + i) * stSize p) nx).nextLeaf = nx.nextLeaf from rfl]
      by_cases h3 : nx.nextLeaf < 2 ^ p.full_height
      · rw [if_pos h3] at h ⊢
        obtain ⟨nx', hnx', h⟩ := Option.bind_eq_some_iff.mp h
        cases h
        have hdi : p.d + i < 2 * p.d - 1 := by rw [← hsl2]; exact (List.getElem?_eq_some_iff.mp hnx).1
        have Cn := S12.cap nx (List.mem_of_getElem? hnx)
        obtain ⟨m3, e3, o3, S3, n3, t3⟩ := bdsStateUpdate_sim F0 (S12.sim _ _ hnx) (kS O2 rfl dS tS) (kS O2 rfl dP tP) (dB hdi dS) (dB hdi dP) Cn.2 hnx'
        rw [e3, Option.bind_some]
        refine ⟨m3, ?_, O2.tr (oB hdi o3), S12.upd hnx o3 S3 (lst_caps t3 Cn.1) n3 (Nat.le_refl _), ?_, rfl, ?_, rfl, rfl⟩
        · rw [Option.some.injEq]
          unfold lowV
          simp only [MtLocalsL.mk.injEq, and_true, true_and]
          exact lstates_set.symm
        · show r.2 - 1 < _; omega
        · show (((v.states.set i r.1).set (p.d + i) nx').length) = _
          rw [List.length_set, hsl2]
      · rw [if_neg h3] at h ⊢
        cases h
        exact ⟨m2, rfl, O2, S12, hr2, rfl, hsl2, rfl, rfl⟩
    · rw [if_neg h2]
      rw [if_neg (fun hh => h2 hh.2)] at h
      cases h
      exact ⟨m2, rfl, O2, S12, hr2, rfl, hsl2, rfl, rfl⟩
  · rw [if_neg h1]
    rw [if_neg (fun hh => h1 hh.1)] at h
    cases h
    exact ⟨m2, rfl, O2, S12, hr2, rfl, hsl2, rfl, rfl⟩

/-- The stored signatures. -/
structure SigsAt (p : Params) (q : Ptr) (m : Mem) (sigs : List Bytes) : Prop where
  len : sigs.length = p.d - 1
  mem : ∀ x ∈ sigs, x.length = p.wots_sig_bytes
  holds : Holds m q sigs.flatten

theorem SigsAt.valid {q : Ptr} {m : Mem} {sigs : List Bytes} (h : SigsAt p q m sigs) : Valid m q ((p.d - 1) * p.wots_sig_bytes) := by
  have := h.holds.1
  rw [flatten_length_of h.mem, h.len] at this
  exact this

theorem SigsAt.keep {q : Ptr} {m m' : Mem} {sigs : List Bytes} (h : SigsAt p q m sigs) {rs : List (Ptr × Nat)} (ho : OnlyIn m m' rs)
    (hd : ∀ r ∈ rs, Disj q ((p.d - 1) * p.wots_sig_bytes) r.1 r.2) : SigsAt p q m' sigs :=
  ⟨h.len, h.mem, h.holds.keep ho (by rw [flatten_length_of h.mem, h.len]; exact hd)⟩

theorem SigsAt.get {q : Ptr} {m : Mem} {sigs : List Bytes} (h : SigsAt p q m sigs) {i : Nat} {x : Bytes} (hi : sigs[i]? = some x) :
    load m (q + i * p.wots_sig_bytes) p.wots_sig_bytes = some x :=
  (holds_flatten _ _ h.mem (by rw [h.len]; exact h.valid)).mp h.holds i x hi

theorem SigsAt.set {q : Ptr} {m m' : Mem} {sigs : List Bytes} (h : SigsAt p q m sigs) {i : Nat} {x : Bytes} (hx : x.length = p.wots_sig_bytes)
    (hs : store m (q + i * p.wots_sig_bytes) x = some m') : SigsAt p q m' (sigs.set i x) := by
  have ho := store_onlyIn hs
  rw [hx] at ho
  have hm : ∀ y ∈ sigs.set i x, y.length = p.wots_sig_bytes := by
    intro y hy
    rcases List.mem_or_eq_of_mem_set hy with hy | rfl
    · exact h.mem y hy
    · exact hx
  refine ⟨by rw [List.length_set, h.len], hm, ?_⟩
  rw [holds_flatten _ _ hm (by rw [List.length_set, h.len]; exact keepValid ho h.valid)]
  intro j y hj
  rw [List.getElem?_set] at hj
  by_cases hij : i = j
  · subst hij
    rw [if_pos rfl] at hj
    split at hj
    · simp only [Option.some.injEq] at hj
      subst hj
      exact (store_holds hs).load hx
    · cases hj
  · rw [if_neg hij] at hj
    refine keepLoad ho (h.get hj) ?_
    intro r hr
    simp only [List.mem_singleton] at hr
    subst hr
    have := mul_apart (n := p.wots_sig_bytes) (k := p.wots_sig_bytes) (Ne.symm hij) (Nat.le_refl _)
    right
    show q.off + j * p.wots_sig_bytes + _ ≤ q.off + i * p.wots_sig_bytes ∨ q.off + i * p.wots_sig_bytes + _ ≤ q.off + j * p.wots_sig_bytes
    omega

/-- Where the stored signatures are. -/
abbrev sigB (p : Params) (B : Ptr) : Ptr := B + (2 * p.d - 1) * stSize p

/-- Bytes of states and signatures. -/
def extSize (p : Params) : Nat := (2 * p.d - 1) * stSize p + (p.d - 1) * p.wots_sig_bytes

theorem Sim.marks {m : Mem} {b : Ptr} {lv : Levels} {w : BdsState} (S : Sim p (.upd b) false m lv w) :
    Sim p (.upd b) false m lv { w with treehash := w.treehash.map fun t => { t with completed := 1 } } := by
  have f := S.fit
  refine ⟨⟨f.stack_len, f.stack_mem, f.levels_len, f.levels_mem, f.auth_len, f.auth_mem, f.keep_len, f.keep_mem, by simpa using f.insts_len, ?_,
    f.retain_nil, f.off_lt⟩, ?_, S.room, S.sep, S.levs⟩
  · intro t ht
    obtain ⟨t0, h0, rfl⟩ := List.mem_map.mp ht
    have := f.insts_mem t0 h0
    exact ⟨this.1, this.2.1, by simp, this.2.2.2⟩
  · intro c x hk hg
    refine S.rel c x ⟨hk.1, trivial⟩ ?_
    cases c with
    | node j =>
      have h' : ((w.treehash.map fun t => { t with completed := 1 })[j]?).map (·.node) = some x := hg
      rw [List.getElem?_map] at h'
      show (w.treehash[j]?).map (·.node) = some x
      rw [← h']
      cases w.treehash[j]? <;> rfl
    | _ => exact hg

theorem lst_marks {b : Ptr} {w : BdsState} : lst p b { w with treehash := w.treehash.map fun t => { t with completed := 1 } } =
    { lst p b w with treehash := (lst p b w).treehash.map fun t => { t with completed := 1 } } := by
  unfold lst
  congr 1
  apply List.ext_getElem?
  intro i
  simp only [List.getElem?_mapIdx, List.getElem?_map]
  cases w.treehash[i]? <;> rfl

set_option maxHeartbeats 1000000 in
theorem mtStepSwap_sim (F0 : Fast0 P H p) {B pS pP : Ptr} {ks ps : Bytes} {v v' : MtLocals} {m : Mem} {idx i K : Nat} (hi : i < p.d)
    (hidx : idx + 1 < 2 ^ p.full_height) (hsl : v.states.length = 2 * p.d - 1) (S : Sims p B m v.states K) (G : SigsAt p (sigB p B) m v.sigs)
    (hoa : v.otsAddr.a3 = UInt32.ofNat 0)
    (tS : load m pS p.n = some ks) (tP : load m pP p.n = some ps) (dS : Disj pS p.n B (extSize p)) (dP : Disj pP p.n B (extSize p))
    (hu : v.updates < 2 ^ 32) (h : mtStepSwap H p ks ps idx i v = some v') :
    ∃ m', mtStepSwapL P p (sigB p B) pS pP idx i (lowV p B m v) = some (lowV p B m' v') ∧ OnlyIn m m' [(B, extSize p)] ∧
      Sims p B m' v'.states K ∧ SigsAt p (sigB p B) m' v'.sigs ∧ v'.updates < 2 ^ 32 ∧ v'.states.length = 2 * p.d - 1 ∧ v'.swap = i + 1 ∧
      v'.otsAddr.a3 = UInt32.ofNat 0 := by
  have g := F0.good
  have hth := g.th_lt
  have hfh := g.fh_lt
  have hht := g.height
  have hd1 := g.d_pos
  have hf63 : 2 ^ p.full_height ≤ 2 ^ 63 := Nat.pow_le_pow_right (by omega) (by omega)
  have h6463 : (2 : Nat) ^ 64 = 2 * 2 ^ 63 := by norm_num
  rw [mtStepSwap] at h
  simp only at h
  obtain ⟨sts, hsts, h⟩ := Option.bind_eq_some_iff.mp h
  obtain ⟨cur, hcur, h⟩ := Option.bind_eq_some_iff.mp h
  obtain ⟨root, hroot, h⟩ := Option.bind_eq_some_iff.mp h
  obtain ⟨sg, hsg, h⟩ := Option.bind_eq_some_iff.mp h
  obtain ⟨nx, hnx, h⟩ := Option.bind_eq_some_iff.mp h
  obtain ⟨hid, rfl⟩ := setA_inv hsg
  rw [G.len] at hid
  rw [swapStates] at hsts
  obtain ⟨x, hx, hsts⟩ := Option.bind_eq_some_iff.mp hsts
  obtain ⟨y, hy, hsts⟩ := Option.bind_eq_some_iff.mp hsts
  cases hsts
  have hne : i ≠ p.d + i := by omega
  have hdi : p.d + i < v.states.length := (List.getElem?_eq_some_iff.mp hy).1
  have hil : i < v.states.length := (List.getElem?_eq_some_iff.mp hx).1
  have hc' : cur = y := by
    rw [List.getElem?_set_ne (Ne.symm hne), List.getElem?_set_self hil] at hcur
    exact (Option.some.inj hcur).symm
  subst hc'
  have hn' : nx = x := by
    rw [List.getElem?_set_self (by rw [List.length_set]; exact hdi)] at hnx
    exact (Option.some.inj hnx).symm
  subst hn'
  have Si := S.sim i nx hx
  have Sd := S.sim (p.d + i) cur hy
  obtain ⟨m1, e1, o1, T1, T2⟩ := deepStateSwap_sim F0 F0.n8 Sd Si (stB_disj (Ne.symm hne))
  have eb := F0.good.sig_wots
  -- regions
  have hBi := stB_in (p := p) (B := B) (i := i) (n := 2 * p.d - 1) (by omega)
  have hBd := stB_in (p := p) (B := B) (i := p.d + i) (n := 2 * p.d - 1) (by omega)
  have hse := mul_end (n := p.wots_sig_bytes) (j := i) (N := p.d - 1) hid
  have O1 : OnlyIn m m1 [(B, (2 * p.d - 1) * stSize p)] := by
    refine o1.into ?_
    intro r hr
    simp only [List.mem_cons, List.not_mem_nil, or_false] at hr
    rcases hr with rfl | rfl
    · exact ⟨_, List.mem_singleton.mpr rfl, rfl, hBd.1, hBd.2⟩
    · exact ⟨_, List.mem_singleton.mpr rfl, rfl, hBi.1, hBi.2⟩
  have G1 : SigsAt p (sigB p B) m1 v.sigs := by
    refine G.keep O1 ?_
    intro r hr
    simp only [List.mem_singleton] at hr
    subst hr
    right; right; exact Nat.le_refl _
  have dB : ∀ {q : Ptr}, Disj q p.n B (extSize p) → Disj q p.n B ((2 * p.d - 1) * stSize p) := by
    intro q hq
    unfold extSize at hq
    rcases hq with h1 | h1
    · exact Or.inl h1
    · right; omega
  have dG : ∀ {q : Ptr}, Disj q p.n B (extSize p) → Disj q p.n (sigB p B + i * p.wots_sig_bytes) (p.wots_len * p.n) := by
    intro q hq
    unfold extSize at hq
    rcases hq with h1 | h1
    · exact Or.inl h1
    · right
      simp only [add_off]
      omega
  have k1 : ∀ {q : Ptr} {x}, Disj q p.n B (extSize p) → load m q p.n = some x → load m1 q p.n = some x := by
    intro q x hq hl
    exact keepLoad O1 hl (by intro r hr; simp only [List.mem_singleton] at hr; subst hr; exact dB hq)
  have hMl : load m1 (lst p (stB p B i) cur).stack p.n = some root := by
    have h1 := T2.get (f := .stack 0) ⟨by simp, trivial⟩ (x := root) hroot
    exact h1
  have hva : Valid m1 (sigB p B + i * p.wots_sig_bytes) (p.wots_len * p.n) := by
    rw [← eb]
    exact G1.valid.sub _ _ hse
  set oa := setOtsAddr (setTreeAddr (setLayerAddr v.otsAddr (i + 1)) ((idx + 1) >>> ((i + 2) * p.tree_height)))
    (((idx >>> ((i + 1) * p.tree_height)) + 1) &&& ((1 <<< p.tree_height) - 1)) with hoae
  obtain ⟨m2, s2, e2⟩ := wotsSign_of F0.hash F0.hlen g hva (dG dS) (dG dP) hMl (k1 dS tS) (k1 dP tP) oa
  have hrl : root.length = p.n := load_length hMl
  obtain ⟨layer, tree, hsub⟩ := exists_isSub (setTreeAddr (setLayerAddr v.otsAddr (i + 1)) ((idx + 1) >>> ((i + 2) * p.tree_height)))
  obtain ⟨w1, w2⟩ := wotsSign_eq (H := H) g (layer := layer) (tree := tree) (ots := ((idx >>> ((i + 1) * p.tree_height)) + 1) &&& ((1 <<< p.tree_height) - 1)) ks ps hrl
    oa ⟨hsub.h0, hsub.h1, hsub.h2, hoa, rfl⟩
  have hwl : (Xmss.wotsSign H p root ks ps oa).1.flatten.length = p.wots_sig_bytes := by rw [w1, wotsSig_flat_length g F0.hlen, g.sig_wots]
  have G2 := G1.set hwl s2
  have o2 := store_onlyIn s2
  rw [hwl] at o2
  cases h
  have hst : ((((v.states.set i cur).set (p.d + i) nx).set (p.d + i) { nx with stackoffset := 0, nextLeaf := 0 }).set i
      { cur with treehash := cur.treehash.map fun t => { t with completed := 1 } }) =
      (v.states.set (p.d + i) { nx with stackoffset := 0, nextLeaf := 0 }).set i { cur with treehash := cur.treehash.map fun t => { t with completed := 1 } } := by
    rw [List.set_set, List.set_comm _ _ hne, List.set_set]
  have SS1 : Sims p B m1 ((v.states.set (p.d + i) { nx with stackoffset := 0, nextLeaf := 0 }).set i { cur with treehash := cur.treehash.map fun t => { t with completed := 1 } }) K := by
    refine ⟨?_, ?_⟩
    · intro j z hj
      by_cases hji : i = j
      · subst hji
        rw [List.getElem?_set_self (by rw [List.length_set]; exact hil)] at hj
        cases hj
        exact T2.marks
      rw [List.getElem?_set_ne hji] at hj
      by_cases hjd : p.d + i = j
      · subst hjd
        rw [List.getElem?_set_self hdi] at hj
        cases hj
        exact T1.scal
      rw [List.getElem?_set_ne hjd] at hj
      refine (S.sim j z hj).keep o1 ?_
      intro r hr
      simp only [List.mem_cons, List.not_mem_nil, or_false] at hr
      rcases hr with rfl | rfl
      · exact stB_disj (Ne.symm hjd)
      · exact stB_disj (Ne.symm hji)
    · intro z hz
      rcases List.mem_or_eq_of_mem_set hz with hz | rfl
      · rcases List.mem_or_eq_of_mem_set hz with hz | rfl
        · exact S.cap z hz
        · exact ⟨(S.cap nx (List.mem_of_getElem? hx)).1, Nat.zero_le _⟩
      · have c := S.cap cur (List.mem_of_getElem? hy)
        refine ⟨?_, c.2⟩
        intro t ht
        obtain ⟨t0, h0, rfl⟩ := List.mem_map.mp ht
        exact c.1 t0 h0
  have SS2 := SS1.keep o2 (by
    intro r hr
    simp only [List.mem_singleton] at hr
    subst hr
    rw [List.length_set, List.length_set, hsl]
    right; left
    simp only [add_off]
    omega)
  rw [← hst] at SS2
  refine ⟨m2, ?_, ?_, SS2, G2, ?_, ?_, rfl, w2.h3⟩
  · have hm2 : (i + 2) * p.tree_height ≤ p.full_height := by rw [← hht, Nat.mul_comm]; exact Nat.mul_le_mul_left _ (by omega)
    have hm1 : (i + 1) * p.tree_height ≤ p.full_height := by rw [← hht, Nat.mul_comm]; exact Nat.mul_le_mul_left _ (by omega)
    have hsh : idx >>> ((i + 1) * p.tree_height) ≤ idx := by rw [Nat.shiftRight_eq_div_pow]; exact Nat.div_le_self _ _
    have hdl : p.d ≤ p.full_height := by rw [← hht]; exact Nat.le_mul_of_pos_left _ g.th_pos
    have hiw : i * p.wots_sig_bytes < 2 ^ 64 := by
      have h1 := g.sig_lt
      have h2 := g.sig_eq
      have h3 : i * p.wots_sig_bytes ≤ p.d * p.wots_sig_bytes := Nat.mul_le_mul_right _ (by omega)
      have h4 : (2 : Nat) ^ 32 < 2 ^ 64 := by norm_num
      omega
    rw [mtStepSwapL]
    simp only [Option.bind_eq_bind]
    rw [show oneShift p = some (2 ^ p.tree_height) by rw [oneShift, if_neg (by omega), Nat.one_shiftLeft], Option.bind_some]
    rw [show (lowV p B m v).states = lstates p B v.states from rfl, lstates_get, lstates_get, hy, hx, Option.map_some, Option.map_some, Option.bind_some, Option.bind_some]
    rw [show (lowV p B m v).mem = m from rfl, e1, Option.bind_some]
    dsimp only
    rw [w64_lt (x := idx + 1) (by omega), w64_lt (x := (i + 2) * p.tree_height) (by omega), w64_lt (x := (i + 1) * p.tree_height) (by omega),
      show shr64 (idx + 1) ((i + 2) * p.tree_height) = some ((idx + 1) >>> ((i + 2) * p.tree_height)) from if_neg (by omega), Option.bind_some,
      show shr64 idx ((i + 1) * p.tree_height) = some (idx >>> ((i + 1) * p.tree_height)) from if_neg (by omega), Option.bind_some,
      w64_lt (x := idx >>> ((i + 1) * p.tree_height) + 1) (by omega), w64_lt hiw, show (lowV p B m v).otsAddr = v.otsAddr from rfl, ← Nat.one_shiftLeft, ← hoae, e2, Option.bind_some]
    rw [Option.some.injEq]
    unfold lowV
    simp only [MtLocalsL.mk.injEq, and_true, true_and]
    refine ⟨?_, ?_, ?_⟩
    · rw [hst, lstates_set, lstates_set, lst_marks]; rfl
    · unfold usub
      rw [Nat.mod_eq_of_lt (show 1 < 2 ^ 32 by norm_num), Nat.add_sub_assoc (by norm_num)]
    · exact w32_lt (by omega)
  · refine OnlyIn.tr (m2 := m1) (O1.into1 B (extSize p) (List.mem_singleton.mpr rfl) rfl (Nat.le_refl _) ?_)
      (o2.into1 B (extSize p) (List.mem_singleton.mpr rfl) rfl ?_ ?_)
    · unfold extSize; omega
    · simp only [add_off]; omega
    · unfold extSize; simp only [add_off]; omega
  · exact Nat.mod_lt _ (by norm_num)
  · rw [List.length_set, List.length_set, List.length_set, List.length_set, hsl]

end Xmss.Low
