import Verif.Proof.LowFastMtSign
import Verif.Proof.MtLast
/-
The pointer-level model of the fast implementation: `xmssmt_core_sign`, the whole function.
-/
namespace Xmss.Low

set_option linter.unusedSimpArgs false

variable {P : Prims} {H : Bytes → Bytes} {p : Params}

theorem valid_new {m0 L : Mem} {i : Nat} {b : Block} {len : Nat} (h : L[i]? = some b) (hb : len ≤ b.length) : Valid (m0 ++ L) ⟨m0.length + i, 0⟩ len := by
  refine ⟨b, ?_, by simpa using hb⟩
  show (m0 ++ L)[m0.length + i]? = some b
  rw [List.getElem?_append_right (by omega), Nat.add_sub_cancel_left, h]

/-- All states of a key in memory. -/
theorem sims_of_holds (F0 : Fast0 P H p) {m : Mem} {B : Ptr} {l : List BdsState} (hl : ∀ s ∈ l, Shape p s) (hh : Holds m B (l.map stateBytes).flatten)
    (hc : ∀ s ∈ l, s.nextLeaf ≤ 2 ^ p.tree_height) : Sims p B m l (2 ^ 32) := by
  refine ⟨?_, fun w hw => ⟨fun t ht => ((hl w hw).insts_mem t ht).2.1, hc w hw⟩⟩
  intro i w hi
  have ft := Shape.fit (hl w (List.mem_of_getElem? hi)) F0.k0
  refine sim_of_holds ft ?_
  have hil := (List.getElem?_eq_some_iff.mp hi).1
  have e : l = l.take i ++ w :: l.drop (i + 1) := by
    rw [← (List.getElem?_eq_some_iff.mp hi).2, List.cons_getElem_drop_succ, List.take_append_drop]
  rw [e, List.map_append, List.flatten_append, holds_append] at hh
  have hlen : ((l.take i).map stateBytes).flatten.length = i * stSize p := by
    rw [flatten_length_of (n := stSize p), List.length_map, List.length_take, Nat.min_eq_left (by omega)]
    intro x hx
    obtain ⟨s, hs, rfl⟩ := List.mem_map.mp hx
    exact stateBytes_len (Shape.fit (hl s (List.mem_of_mem_take hs)) F0.k0)
  rw [hlen, List.map_cons, List.flatten_cons, holds_append] at hh
  exact hh.2.1

theorem _root_.Xmss.FastMt.ib_pos (f : FastMt p) : 0 < p.index_bytes := by
  have h := f.good.idx_fits
  by_contra hc
  rw [show p.index_bytes = 0 by omega, pow_zero] at h
  have h1 : 1 ≤ p.full_height := by
    rw [← f.good.height]
    exact Nat.mul_pos f.good.th_pos f.good.d_pos
  have : 2 ^ 1 ≤ 2 ^ p.full_height := Nat.pow_le_pow_right (by omega) h1
  omega

/-- The key sizes of the multi-tree implementation. -/
theorem extSize_bytes (F0 : Fast0 P H p) {states : List BdsState} {sigs : List Bytes} (ex : ExtShape p states sigs) (hd : 1 ≤ p.d) :
    bdsStateBytes p = stSize p ∧ (2 * p.d - 1) * bdsStateBytes p + (p.d - 1) * p.wots_sig_bytes = extSize p := by
  have hsl := ex.states_len
  have h : bdsStateBytes p = stSize p := bdsStateBytes_st F0 (ex.states_mem states[0] (List.getElem_mem (by omega)))
  exact ⟨h, by rw [h, extSize]⟩

theorem _root_.Xmss.ExtShape.wiped {states : List BdsState} {sigs : List Bytes} (sh : ExtShape p states sigs) :
    ExtShape p (states.map BdsState.wipe) (sigs.map fun x => List.replicate x.length 0) := by
  refine ⟨by simp [sh.states_len], ?_, by simp [sh.sigs_len], ?_⟩
  · intro s hs
    obtain ⟨t, ht, rfl⟩ := List.mem_map.mp hs
    exact (sh.states_mem t ht).wipe
  · intro x hx
    obtain ⟨y, hy, rfl⟩ := List.mem_map.mp hx
    rw [List.length_replicate]; exact sh.sigs_mem y hy

theorem lstates_wipe {B : Ptr} {l : List BdsState} : lstates p B (l.map BdsState.wipe) = lstates p B l := by
  apply List.ext_getElem?
  intro i
  rw [lstates_get, lstates_get, List.getElem?_map]
  cases l[i]? with
  | none => rfl
  | some w => simp only [Option.map_some, lst_wipe]

theorem flatten_zero {sigs : List Bytes} : (sigs.map fun x => List.replicate x.length (0 : UInt8)).flatten = List.replicate sigs.flatten.length 0 := by
  induction sigs with
  | nil => rfl
  | cons x l ih => simp only [List.map_cons, List.flatten_cons, ih, List.length_append, List.replicate_add]

theorem extSize_lt (F0 : Fast0 P H p) : extSize p < 2 ^ 40 := by
  have h1 := F0.stSize_lt
  have g := F0.good
  have h2 : (p.d - 1) * p.wots_sig_bytes ≤ p.sig_bytes := by
    have e := g.sig_eq
    have : (p.d - 1) * p.wots_sig_bytes ≤ p.d * p.wots_sig_bytes := Nat.mul_le_mul_right _ (by omega)
    omega
  have h3 := g.sig_lt
  have hd : p.d ≤ 64 := by
    have h1 := g.height
    have h2 := g.fh_lt
    have h3 := Nat.le_mul_of_pos_left p.d g.th_pos
    omega
  have h4 : (2 * p.d - 1) * stSize p ≤ 128 * 2 ^ 24 := Nat.mul_le_mul (by omega) (by omega)
  have h5 : 128 * 2 ^ 24 + 2 ^ 32 < (2 : Nat) ^ 40 := by norm_num
  unfold extSize
  omega

theorem toNat_zeros (k : Nat) : Rfc.toNat (List.replicate k 0) = 0 := by
  induction k with
  | zero => rfl
  | succ k ih => rw [List.replicate_succ, Rfc.toNat, List.foldl_cons]; exact ih

/-- The counter `next_leaf` (the last four bytes) of every BDS state in the secret key (without OID) is at most the number
of leaves of a tree. -/
def Counted (p : Params) (body : Bytes) : Prop :=
  ∀ i, i < 2 * p.d - 1 →
    Rfc.toNat ((body.drop (p.index_bytes + 4 * p.n + (i + 1) * bdsStateBytes p - 4)).take 4) ≤ 2 ^ p.tree_height

theorem counted_iff {hd : Bytes} {states : List BdsState} {sigs : List Bytes} (hh : hd.length = p.index_bytes + 4 * p.n) (lx : LenExt p states sigs)
    (hb : ∀ s ∈ states, s.nextLeaf < 2 ^ 32) : Counted p (hd ++ extBytes states sigs) ↔ ∀ s ∈ states, s.nextLeaf ≤ 2 ^ p.tree_height := by
  have key : ∀ i (h : i < states.length), Rfc.toNat (((hd ++ extBytes states sigs).drop (p.index_bytes + 4 * p.n + (i + 1) * bdsStateBytes p - 4)).take 4) =
      states[i].nextLeaf := by
    intro i hi
    obtain ⟨x, hx⟩ : ∃ x, stateBytes states[i] = x ++ Xmss.ullToBytes 4 states[i].nextLeaf := ⟨_, rfl⟩
    have hl := (lx.states_mem _ (List.getElem_mem hi)).bytes
    have e4 : (Xmss.ullToBytes 4 states[i].nextLeaf).length = 4 := by rw [ullToBytes_eq, toByte_length]
    have hx4 : x.length + 4 = bdsStateBytes p := by rw [← hl, hx, List.length_append, e4]
    have e : states = states.take i ++ states[i] :: states.drop (i + 1) := by rw [List.cons_getElem_drop_succ, List.take_append_drop]
    have hpre : ((states.take i).map stateBytes).flatten.length = i * bdsStateBytes p := by
      rw [flatten_length_of (n := bdsStateBytes p), List.length_map, List.length_take, Nat.min_eq_left (by omega)]
      intro y hy
      obtain ⟨s, hs, rfl⟩ := List.mem_map.mp hy
      exact (lx.states_mem s (List.mem_of_mem_take hs)).bytes
    have e2 : hd ++ extBytes states sigs = (hd ++ ((states.take i).map stateBytes).flatten ++ x) ++ (Xmss.ullToBytes 4 states[i].nextLeaf ++
        (((states.drop (i + 1)).map stateBytes).flatten ++ sigs.flatten)) := by
      have : (states.map stateBytes).flatten = ((states.take i).map stateBytes).flatten ++ (stateBytes states[i] ++ ((states.drop (i + 1)).map stateBytes).flatten) := by
        conv => lhs; rw [e]
        rw [List.map_append, List.flatten_append, List.map_cons, List.flatten_cons]
      rw [extBytes, this, hx]
      simp only [List.append_assoc]
    have hm : (i + 1) * bdsStateBytes p = i * bdsStateBytes p + bdsStateBytes p := by rw [Nat.add_mul, Nat.one_mul]
    rw [e2, List.drop_left' (by simp only [List.length_append, hpre]; omega), List.take_left' e4, ullToBytes_eq, toNat_toByte,
      Nat.mod_eq_of_lt (by have := hb _ (List.getElem_mem hi); exact this)]
  have hsl := lx.states_len
  constructor
  · intro h s hs
    obtain ⟨i, hi, rfl⟩ := List.getElem_of_mem hs
    rw [← key i hi]
    exact h i (by omega)
  · intro h i hi
    rw [key i (by omega)]
    exact h _ (List.getElem_mem _)

set_option maxHeartbeats 2000000 in
/-- `xmssmt_core_sign` of the fast implementation does to memory what the first model does to the contents of the buffers. -/
theorem fastXmssmtSignL_of (F1 : FastMt p) (F0 : Fast0 P H p) {m0 : Mem} {sk sm msg : Ptr} {l0 : Nat} {key sm0 M : Bytes} {o : FastOut}
    (hkl : key.length = p.sk_bytes) (hsml : p.sig_bytes + M.length ≤ sm0.length) (ho : fastXmssmtSign H p key sm0 l0 M = some o)
    (hcnt : Counted p key)
    (hk : Holds m0 sk key) (hM : Holds m0 msg M) (hv : Valid m0 sm (p.sig_bytes + M.length))
    (d1 : Disj sk p.sk_bytes sm (p.sig_bytes + M.length)) (d2 : Disj msg M.length sm (p.sig_bytes + M.length))
    (d3 : Disj msg M.length sk p.sk_bytes) (hml : p.sig_bytes + M.length < 2 ^ 64) :
    ∃ m', fastXmssmtSignL P p m0 sk sm l0 msg M.length = some (o.ret, o.smlen, m') ∧ Holds m' sk o.sk ∧ o.sk.length = p.sk_bytes ∧
      (o.ret = 0 → OnlyIn m0 m' [(sk, p.sk_bytes), (sm, p.sig_bytes + M.length)] ∧
        ∃ x, x.length = p.sig_bytes + M.length ∧ Holds m' sm x ∧ o.sm = x ++ sm0.drop (p.sig_bytes + M.length)) ∧
      (o.ret ≠ 0 → OnlyIn m0 m' [(sk, p.sk_bytes)] ∧ o.sm = sm0) ∧
      Counted p o.sk := by
  have g := F0.good
  have hn := g.n_pos
  have hth := g.th_lt
  have hfh := g.fh_lt
  have hn16 := (fits_of_good g).n_lt
  have hI := F1.ib_pos
  have hil := g.idx_le
  have hd2 := F1.d
  have h1632 : (2 : Nat) ^ 16 * 4 + 8 < 2 ^ 32 := by norm_num
  -- the key
  obtain ⟨states, sigs, eds, ex, elv, erd⟩ := deserialize_any (p := p) key (by rw [hkl, F1.sk])
  obtain ⟨hst, hes⟩ := extSize_bytes F0 ex (by omega)
  have hskb : p.sk_bytes = p.index_bytes + 4 * p.n + extSize p := by
    rw [F1.sk, fastSkBytes, ← hes]; omega
  have hcut : key = key.take (p.index_bytes + 4 * p.n) ++ extBytes states sigs := by
    have e : key.drop (p.index_bytes + 4 * p.n) = extBytes states sigs := by
      rw [hes] at erd
      rw [rd_some (by omega)] at erd
      simp only [Option.some.injEq] at erd
      rw [List.take_of_length_le (by simp; omega)] at erd
      exact erd
    rw [← e, List.take_append_drop]
  obtain ⟨ib, ks, kf, root, ps, ehead, hib, h1, h2, h3, h4⟩ := skHead_any (p := p) (x := key.take (p.index_bytes + 4 * p.n))
    (by rw [List.length_take]; omega)
  rw [ehead] at hcut
  clear ehead erd
  subst hcut
  have hhl : (skHead ib ks kf root ps).length = p.index_bytes + 4 * p.n := skHead_length hib h1 h2 h3 h4
  have hcn := (counted_iff hhl ex.len fun s hs => (ex.states_mem s hs).next_lt).mp hcnt
  have hxl : (extBytes states sigs).length = extSize p := by rw [ex.len.bytes, hes]
  obtain ⟨hkh, hks⟩ := (holds_append.mp hk)
  rw [hhl] at hks
  rw [hskb] at d1 d3
  have hbl : ((states.map stateBytes).flatten).length = (2 * p.d - 1) * stSize p := by
    rw [states_length ex.states_mem, ex.states_len, hst]
  rw [extBytes, holds_append, hbl] at hks
  -- the local arrays
  set L : Mem := [List.replicate p.n none, List.replicate p.n none, List.replicate p.n none, List.replicate p.n none, List.replicate p.n none,
    List.replicate 32 none] with hL
  set N := m0.length with hN
  have bsk : sk.blk < N := load_blk (hkh.load rfl)
  have bsm : sm.blk < N := by
    obtain ⟨b, hb, -⟩ := hv
    exact (List.getElem?_eq_some_iff.mp hb).1
  have bmsg : msg.blk < N := load_blk (hM.load rfl)
  have vv : ∀ i, i < 5 → Valid (m0 ++ L) ⟨N + i, 0⟩ p.n := by
    intro i hi
    refine valid_new (b := List.replicate p.n none) ?_ (by simp)
    rcases i with _ | _ | _ | _ | _ | i <;> first | rfl | omega
  have vI : Valid (m0 ++ L) ⟨N + 5, 0⟩ 32 := valid_new (b := List.replicate 32 none) rfl (by simp)
  -- reading the key
  set b : Ptr := sk + (p.index_bytes + 4 * p.n) with hb
  have hd64 : p.d ≤ 64 := by
    have h1 := g.height
    have h2 := Nat.le_mul_of_pos_left p.d g.th_pos
    omega
  have eu : usub (w32 (2 * p.d)) 1 = 2 * p.d - 1 := by rw [w32_lt (by omega), usub_eq (by omega) (by omega)]
  have a1 : arraysOk p = true := by
    unfold arraysOk
    rw [F0.instsL, eu]
    have := F1.th
    simp only [ne_eq, decide_eq_true_eq]
    exact ⟨by omega, by omega⟩
  have a2 : deserializeL p (m0 ++ L) sk = some (lstates p b states, sigB p b) := by
    have := readStatesL_of F0 states b ex.states_mem (holds_left (L := L) hks.1)
    rw [ex.states_len] at this
    rw [deserializeL, w32_lt (x := 4 * p.n) (by omega), w32_lt (x := p.index_bytes + 4 * p.n) (by omega), ← hb, eu]
    exact this
  have lib : load (m0 ++ L) sk p.index_bytes = some ib := (skHead_loads (holds_left (L := L) hkh) hib h1 h2 h3 h4).1
  have a3 : bytesToUll (m0 ++ L) sk p.index_bytes = some (Rfc.toNat ib) := by
    rw [bytesToUll_of (by omega) lib, bytesToUll_eq (by omega)]
  have a4 : one64 p.full_height = some (2 ^ p.full_height) := if_neg (by omega)
  set idx := Rfc.toNat ib with hidxd
  -- the body, on a key
  have body : ∀ (m1 : Mem) (ib' ks' kf' root' ps' y : Bytes) (st : List BdsState) (sg : List Bytes) (o' : FastOut), ib'.length = p.index_bytes →
      ks'.length = p.n → kf'.length = p.n → root'.length = p.n → ps'.length = p.n → y.length = extSize p →
      OnlyIn (m0 ++ L) m1 [(sk, p.sk_bytes)] → idx < 2 ^ p.full_height →
      Holds m1 sk (skHead ib' ks' kf' root' ps') → ExtShape p st sg →
      Sims p b m1 st (2 ^ 32) → SigsAt p (sigB p b) m1 sg →
      fastXmssmtSignBody H p (skHead ib' ks' kf' root' ps' ++ y) sm0 M st sg idx = some o' →
      ∃ m', fastXmssmtSignBodyL P p m1 ⟨N, 0⟩ ⟨N + 1, 0⟩ ⟨N + 2, 0⟩ ⟨N + 3, 0⟩ ⟨N + 4, 0⟩ ⟨N + 5, 0⟩ sk sm msg M.length (lstates p b st)
          (sigB p b) idx = some (o'.smlen, m') ∧ o'.ret = 0 ∧ Holds (release m0 m') sk o'.sk ∧
        o'.sk.length = p.sk_bytes ∧ OnlyIn m0 (release m0 m') [(sk, p.sk_bytes), (sm, p.sig_bytes + M.length)] ∧
        (∃ x, x.length = p.sig_bytes + M.length ∧ Holds (release m0 m') sm x ∧ o'.sm = x ++ sm0.drop (p.sig_bytes + M.length)) ∧
        Counted p o'.sk := by
    intro m1 ib' ks' kf' root' ps' y st sg o' l1 l2 l3 l4 l5 ly ow hix hh shw Sw Gw hbody
    obtain ⟨a, ⟨ha, hao⟩, e⟩ := fastXmssmtSignBody_bind (H := H) (p := p) g F0.hlen (z := []) (y := y)
      (sm0 := sm0.take p.sig_bytes) (old := (sm0.drop p.sig_bytes).take M.length) (post := sm0.drop (p.sig_bytes + M.length))
      (m := M) (states := st) (sigs := sg) (idx := idx) l1 l2 l3 l4 l5 (by rw [ly, hes]) (by simp; omega) (by simp; omega) shw
    have e := e (fun v h' => (mtTraverse_len g F0.hlen shw.len hao.h3 h').bytes)
    rw [← split3, List.append_nil, hbody] at e
    obtain ⟨v, ht, rfl⟩ := Option.map_eq_some_iff.mp e.symm
    have lv := mtTraverse_len g F0.hlen shw.len hao.h3 ht
    rw [ha] at ht
    have kv : ∀ {q : Ptr} {len : Nat}, Valid (m0 ++ L) q len → Valid m1 q len := fun h => keepValid ow h
    have hMw : Holds m1 msg M := (holds_left (L := L) hM).keep ow (by rw [hskb]; dj d3)
    have hstl := storedLayers_length shw (p.d - 1) 1 (Nat.le_refl _) (by omega)
    obtain ⟨m', r1, r2, r3, r4, r5⟩ := fastXmssmtSignBody_sim F0 hI (pS := ⟨N, 0⟩) (pF := ⟨N + 1, 0⟩) (pP := ⟨N + 2, 0⟩) (R := ⟨N + 3, 0⟩)
      (mh := ⟨N + 4, 0⟩) (pI := ⟨N + 5, 0⟩) rfl rfl rfl rfl rfl rfl bsk bsm bmsg (kv (vv 0 (by omega))) (kv (vv 1 (by omega))) (kv (vv 2 (by omega)))
      (kv (vv 3 (by omega))) (kv (vv 4 (by omega))) (kv vI) hix hh l1 l2 l3 l4 l5 shw.states_len Sw Gw hMw (kv hv.left) d1 d2 d3 hml hstl ht
    have hdgl : ((suiteOf p H).digest ((suiteOf p H).PRF kf' (Rfc.toByte idx 32)) root' idx M).length = p.n := F0.hlen _
    rw [(Xmss.wotsSign_eq (H := H) g (layer := 0) (tree := idx / 2 ^ p.tree_height) (ots := idx % 2 ^ p.tree_height) ks' ps' hdgl _
      ⟨rfl, rfl, rfl, rfl, rfl⟩).1] at r4
    have hRl : ((suiteOf p H).PRF kf' (Rfc.toByte idx 32)).length = p.n := F0.hlen _
    have hst0 : 0 < st.length := by have := shw.states_len; omega
    have hal := (shw.states_mem _ (List.getElem_mem hst0)).auth_flat
    have e0 : st.getD 0 default = st[0] := by rw [List.getD_eq_getElem?_getD, List.getElem?_eq_getElem hst0]; rfl
    have hsig := g.sig_eq'
    have hsw := g.sig_wots
    have hsigc : p.sig_bytes = p.index_bytes + p.n + p.wots_sig_bytes + p.tree_height * p.n +
        (p.d - 1) * (p.wots_sig_bytes + p.tree_height * p.n) := by
      have e : (p.wots_len + p.tree_height) * p.n = p.wots_sig_bytes + p.tree_height * p.n := by rw [hsw, Nat.add_mul]
      rw [hsig, e]
      obtain ⟨c, hc⟩ : ∃ c, c = p.wots_sig_bytes + p.tree_height * p.n := ⟨_, rfl⟩
      rw [← hc]
      have e2 : p.d * c = c + (p.d - 1) * c := by
        conv => lhs; rw [show p.d = 1 + (p.d - 1) by omega, Nat.add_mul, Nat.one_mul]
      omega
    refine ⟨m', r1, rfl, ?_, ?_, ?_, ⟨_, ?_, holds_release r4 bsm, rfl⟩, ?_⟩
    · rw [List.append_nil]; exact holds_release r3 bsk
    · rw [List.append_nil, List.length_append, skHead_length (toByte_length _ _) l2 l3 l4 l5, lv.bytes, hes, hskb]
    · have o2 := (ow.sub (c := (sk, p.sk_bytes) :: bodyRanges p sk sm ⟨N, 0⟩ ⟨N + 1, 0⟩ ⟨N + 2, 0⟩ ⟨N + 3, 0⟩ ⟨N + 4, 0⟩ ⟨N + 5, 0⟩ M.length)
        (by simp)).tr (r2.sub (fun r hr => List.mem_cons_of_mem _ hr))
      refine o2.release ?_
      intro r hr
      simp only [bodyRanges, List.mem_cons, List.not_mem_nil, or_false] at hr
      rcases hr with rfl | rfl | rfl | rfl | rfl | rfl | rfl | rfl | rfl
      all_goals first | (left; simp [hskb]; done) | (right; exact Nat.le_refl N) | (right; exact Nat.le_add_right N _)
    · simp only [List.length_append, toByte_length, hRl, wotsSig_flat_length g F0.hlen, e0, hal, hstl]
      omega
    · rw [List.append_nil]
      refine (counted_iff (skHead_length (toByte_length _ _) l2 l3 l4 l5) lv ?_).mpr r5
      intro s hs
      have := r5 s hs
      have h2 : (2 : Nat) ^ 30 < 2 ^ 32 := by norm_num
      have : 2 ^ p.tree_height ≤ 2 ^ 30 := Nat.pow_le_pow_right (by omega) (by omega)
      omega
  -- the first model
  rw [fastXmssmtSign, if_neg (by omega), eds] at ho
  have r1 : rd (skHead ib ks kf root ps ++ extBytes states sigs) 0 p.index_bytes = some ib :=
    (skPhase (p := p) (extBytes states sigs) hib h1 h2 h3 h4 0).1
  simp only [Option.bind_eq_bind, Option.bind_some, r1] at ho
  rw [bytesToUll_eq (by omega)] at ho
  simp only [Option.bind_some] at ho
  rw [if_neg (by omega), ← hidxd] at ho
  have al : ∀ (l : Mem) (k : Nat), 0 < k → alloc (m0 ++ l) k = some (⟨N + l.length, 0⟩, m0 ++ (l ++ [List.replicate k none])) := by
    intro l k hk
    rw [alloc_pos hk, List.length_append, List.append_assoc]
  have al0 : alloc m0 p.n = some (⟨N, 0⟩, m0 ++ [List.replicate p.n none]) := alloc_pos hn
  rw [fastXmssmtSignL]
  simp only [Option.bind_eq_bind]
  rw [al0, Option.bind_some]
  dsimp only
  rw [al _ _ hn, Option.bind_some]
  dsimp only
  rw [al _ _ hn, Option.bind_some]
  dsimp only
  rw [al _ _ hn, Option.bind_some]
  dsimp only
  rw [al _ _ hn, Option.bind_some]
  dsimp only
  rw [al _ _ (by omega), Option.bind_some]
  dsimp only
  simp only [List.cons_append, List.nil_append, List.length_cons, List.length_nil, Nat.zero_add]
  rw [← hL, if_neg (by simp [a1]), a2, Option.bind_some, a3, Option.bind_some, a4, Option.bind_some]
  by_cases hc : 2 ^ p.full_height - 1 ≤ idx
  · rw [if_pos hc] at ho ⊢
    have hskx : skHead ib ks kf root ps ++ extBytes states sigs = ib ++ (ks ++ kf ++ root ++ ps ++ extBytes states sigs) := by simp [skHead]
    rw [hskx, wipeKey_eq ib _ hib (l := 4 * p.n + extSize p) (by simp only [List.length_append]; omega) (by omega),
      Option.bind_some] at ho
    have hvk : Valid (m0 ++ L) sk p.sk_bytes := by
      have := hk.1; rw [List.length_append, hhl, hxl, ← hskb] at this; exact Valid.left this
    obtain ⟨m1, t1, t2, t3⟩ := stF (m := m0 ++ L) (q := sk) (x := List.replicate p.index_bytes 0xFF) (len := p.index_bytes)
      (hvk.sub 0 _ (by omega)) (by simp)
    obtain ⟨m2, t4, t5, t6⟩ := stF (m := m1) (q := sk + p.index_bytes) (x := List.replicate (4 * p.n + extSize p) 0) (len := 4 * p.n + extSize p)
      ((keepValid t2 hvk).sub _ _ (by omega)) (by simp)
    have ow : OnlyIn (m0 ++ L) m2 [(sk, p.sk_bytes)] :=
      (t2.into1 sk p.sk_bytes (by simp) rfl (Nat.le_refl _) (by omega)).tr
        (t5.into1 sk p.sk_bytes (by simp) rfl (by simp only [add_off]; omega) (by simp only [add_off]; omega))
    have hw : Holds m2 sk (List.replicate p.index_bytes 0xFF ++ List.replicate (4 * p.n + extSize p) 0) := by
      rw [holds_append, List.length_replicate]
      refine ⟨t3.keep t5 ?_, t6⟩
      rw [List.length_replicate]; dj
    have hskl : p.sk_bytes < 2 ^ 64 := by
      have h1 := extSize_lt F0
      have h2 : (2 : Nat) ^ 40 + 2 ^ 32 < 2 ^ 64 := by norm_num
      omega
    rw [t1, Option.bind_some, w64_wrap (by omega) hskl, show p.sk_bytes - p.index_bytes = 4 * p.n + extSize p by omega, t4, Option.bind_some]
    have hz := Key.zero_valid p
    by_cases hc2 : 2 ^ p.full_height - 1 < idx ∨ p.full_height = 64 ∧ idx = 2 ^ p.full_height - 1
    · rw [if_pos hc2] at ho ⊢
      cases ho
      have ow' : OnlyIn m0 (release m0 m2) [(sk, p.sk_bytes)] := ow.release fun r hr => Or.inl hr
      refine ⟨_, rfl, holds_release hw bsk, ?_, fun h => by simp at h, fun _ => ⟨ow', rfl⟩, ?_⟩
      · simp only [List.length_append, List.length_replicate]; omega
      · have hw0 : ∀ i, i < 2 * p.d - 1 → (List.replicate p.index_bytes (0xFF : UInt8) ++ List.replicate (4 * p.n + extSize p) 0).drop
            (p.index_bytes + 4 * p.n + (i + 1) * bdsStateBytes p - 4) = List.replicate (4 * p.n + extSize p - (4 * p.n + (i + 1) * bdsStateBytes p - 4)) 0 := by
          intro i _
          have : p.index_bytes + 4 * p.n + (i + 1) * bdsStateBytes p - 4 = p.index_bytes + (4 * p.n + (i + 1) * bdsStateBytes p - 4) := by omega
          rw [this, List.drop_append, List.length_replicate, Nat.add_sub_cancel_left, List.drop_of_length_le (by simp), List.nil_append, List.drop_replicate]
        intro i hi
        rw [hw0 i hi, List.take_replicate, toNat_zeros]
        exact Nat.zero_le _
    · rw [if_neg hc2] at ho ⊢
      rw [wipe_head] at ho hw
      obtain ⟨hw1, hw2⟩ := holds_append.mp hw
      rw [skHead_length (by simp) hz.skSeed hz.skPrf hz.root hz.pubSeed] at hw2
      have ex' := ExtShape.wiped ex
      have hw3 : Holds m2 b (List.replicate ((2 * p.d - 1) * stSize p) 0 ++ List.replicate ((p.d - 1) * p.wots_sig_bytes) 0) := by
        rw [← List.replicate_add]; exact hw2
      rw [holds_append, List.length_replicate] at hw3
      have S2 : Sims p b m2 (states.map BdsState.wipe) (2 ^ 32) := by
        refine ⟨?_, ?_⟩
        · intro i w hi
          rw [List.getElem?_map] at hi
          obtain ⟨w0, hw0, rfl⟩ := Option.map_eq_some_iff.mp hi
          have sh0 := ex.states_mem w0 (List.mem_of_getElem? hw0)
          refine sim_wipe (Shape.fit sh0 F0.k0) (Shape.fit sh0.wipe F0.k0) (Holds.of_load (holds_zero_sub hw3.1 ?_))
          have hil := (List.getElem?_eq_some_iff.mp hw0).1
          rw [ex.states_len] at hil
          exact mul_end hil
        · intro w hw
          obtain ⟨w0, hw0, rfl⟩ := List.mem_map.mp hw
          refine ⟨fun t ht => (((ex.states_mem w0 hw0).wipe).insts_mem t ht).2.1, hcn w0 hw0⟩
      have G2 : SigsAt p (sigB p b) m2 (sigs.map fun x => List.replicate x.length 0) := by
        refine ⟨ex'.sigs_len, ex'.sigs_mem, ?_⟩
        rw [flatten_zero, flatten_length_of ex.sigs_mem, ex.sigs_len]
        exact hw3.2
      obtain ⟨m', q1, q2, q3, q4, q5, q6, q7⟩ := body m2 _ _ _ _ _ _ _ _ o (by simp) hz.skSeed hz.skPrf hz.root hz.pubSeed (by simp) ow
        (by have := Nat.two_pow_pos p.full_height; omega) hw1 ex' S2 G2 ho
      rw [lstates_wipe] at q1
      rw [q1]
      exact ⟨_, by rw [q2]; rfl, q3, q4, fun _ => ⟨q5, q6⟩, fun h => absurd q2 h, q7⟩
  · rw [if_neg hc] at ho ⊢
    obtain ⟨m', q1, q2, q3, q4, q5, q6, q7⟩ := body (m0 ++ L) ib ks kf root ps (extBytes states sigs) states sigs o hib h1 h2 h3 h4 hxl
      (⟨rfl, fun _ _ _ => rfl⟩) (by omega) (holds_left hkh) ex
      (sims_of_holds F0 ex.states_mem (holds_left hks.1) hcn) ⟨ex.sigs_len, ex.sigs_mem, holds_left hks.2⟩ ho
    rw [q1]
    exact ⟨_, by rw [q2]; rfl, q3, q4, fun _ => ⟨q5, q6⟩, fun h => absurd q2 h, q7⟩

end Xmss.Low
