import Verif.Proof.LowTreehash
/-
The pointer-level model of the simple implementation: the loops of `xmssmt_core_sign` and `xmssmt_core_sign_open`.
-/
namespace Xmss.Low

variable {P : Prims} {H : Bytes → Bytes} {p : Params}

theorem oneShift_eq (g : p.Good) : oneShift p = some (2 ^ p.tree_height) := by
  have := g.th_lt
  rw [oneShift, if_neg (by omega), Nat.shiftLeft_eq, one_mul]

theorem leaf_w32 (g : p.Good) (idx : Nat) : w32 (idx &&& (2 ^ p.tree_height - 1)) = idx % 2 ^ p.tree_height := by
  rw [Nat.and_two_pow_sub_one_eq_mod]
  apply w32_lt
  have h1 : idx % 2 ^ p.tree_height < 2 ^ p.tree_height := Nat.mod_lt _ (Nat.two_pow_pos _)
  have h2 : 2 ^ p.tree_height ≤ 2 ^ 31 := Nat.pow_le_pow_right (by omega) (by have := g.th_lt; omega)
  have h3 : (2 : Nat) ^ 31 < 2 ^ 32 := by norm_num
  omega

theorem layer_le (g : p.Good) : p.index_bytes + p.n + (p.wots_len + p.tree_height) * p.n ≤ p.sig_bytes := by
  have := g.sig_eq'
  have hd := g.d_pos
  have : (p.wots_len + p.tree_height) * p.n ≤ p.d * ((p.wots_len + p.tree_height) * p.n) := Nat.le_mul_of_pos_left _ hd
  omega

theorem th_size (g : p.Good) : (p.tree_height + 1) * p.n < 2 ^ 32 := by
  have := layer_le g
  have := g.sig_lt
  have : (p.tree_height + 1) * p.n = p.tree_height * p.n + p.n := by ring
  have : (p.wots_len + p.tree_height) * p.n = p.wots_len * p.n + p.tree_height * p.n := by ring
  omega

theorem th_mul_lt (g : p.Good) : p.tree_height * p.n < 2 ^ 32 := by
  have := th_size g
  have : (p.tree_height + 1) * p.n = p.tree_height * p.n + p.n := by ring
  omega

theorem signLayers_of (hH : Xmss.coreHash P p.func p.n = some H) (hl : ∀ x, (H x).length = p.n) (g : p.Good)
    {root skSeed pubSeed : Ptr} {k s : Bytes} (dkr : Disj skSeed p.n root p.n) (dsr : Disj pubSeed p.n root p.n) :
    ∀ (cnt i idx : Nat) (a : Addr) (sm : Ptr) (m : Mem) (M : Bytes), a.a3 = UInt32.ofNat 0 →
      load m skSeed p.n = some k → load m pubSeed p.n = some s → load m root p.n = some M →
      Valid m sm (cnt * ((p.wots_len + p.tree_height) * p.n)) →
      Disj skSeed p.n sm (cnt * ((p.wots_len + p.tree_height) * p.n)) →
      Disj pubSeed p.n sm (cnt * ((p.wots_len + p.tree_height) * p.n)) →
      Disj root p.n sm (cnt * ((p.wots_len + p.tree_height) * p.n)) →
      ∃ m1 m2 M', M'.length = p.n ∧ store m sm ((suiteOf p H).signLayers k s cnt i idx M) = some m1 ∧
        store m1 root M' = some m2 ∧ signLayers P p root skSeed pubSeed cnt i idx a sm m = some m2 := by
  intro cnt
  induction cnt with
  | zero =>
    intro i idx a sm m M ha hk hs hM hv d1 d2 d3
    exact ⟨m, m, M, load_length hM, hv.store_nil, store_load hM, rfl⟩
  | succ cnt ih =>
    intro i idx a sm m M ha hk hs hM hv d1 d2 d3
    have hM' := load_length hM
    set B := (p.wots_len + p.tree_height) * p.n with hB
    have hBe : B = p.wots_len * p.n + p.tree_height * p.n := by rw [hB]; ring
    have hcB : (cnt + 1) * B = p.wots_len * p.n + p.tree_height * p.n + cnt * B := by rw [← hBe]; ring
    rw [signLayers, oneShift_eq g]
    simp only [Option.bind_eq_bind]
    rw [Option.bind_some, leaf_w32 g]
    have hth := g.th_lt
    rw [if_neg (by omega)]
    simp only [Nat.shiftRight_eq_div_pow]
    set lf := idx % 2 ^ p.tree_height with hlf
    set tr := idx / 2 ^ p.tree_height with htr
    have hlt : lf < 2 ^ p.tree_height := Nat.mod_lt _ (Nat.two_pow_pos _)
    obtain ⟨w1, w2⟩ := wotsSign_eq (H := H) g (layer := i) (tree := tr) (ots := lf) k s hM'
      (setOtsAddr (setTreeAddr (setLayerAddr a i) tr) lf) ⟨rfl, rfl, rfl, ha, rfl⟩
    have hwl := wotsSig_flat_length g hl k s M i tr lf
    have hal := authPath_flat_length g hl k s i tr lf
    obtain ⟨ma, e1, f1⟩ := wotsSign_of hH hl g (m := m) (sig := sm) (msg := root) (seed := skSeed) (pubSeed := pubSeed)
      (by simpa using hv.sub 0 (p.wots_len * p.n) (by omega)) (d1.mono (Nat.le_refl _) (by omega))
      (d2.mono (Nat.le_refl _) (by omega)) hM hk hs
      (setOtsAddr (setTreeAddr (setLayerAddr a i) tr) lf)
    rw [w1] at e1
    rw [f1, Option.bind_some]
    dsimp only
    set W := ((suiteOf p H).wotsSig k s M i tr lf).flatten with hW
    set A := ((suiteOf p H).authPath k s i tr lf).flatten with hA
    have dk1 : Disj skSeed p.n sm W.length := d1.mono (Nat.le_refl _) (by omega)
    have ds1 : Disj pubSeed p.n sm W.length := d2.mono (Nat.le_refl _) (by omega)
    have hk1 : load ma skSeed p.n = some k := by rw [load_store_disj e1 dk1]; exact hk
    have hs1 : load ma pubSeed p.n = some s := by rw [load_store_disj e1 ds1]; exact hs
    have hva : Valid ma (sm + p.wots_len * p.n) (p.tree_height * p.n) :=
      (hv.sub (p.wots_len * p.n) (p.tree_height * p.n) (by omega)).after e1
    have hvr : Valid ma root p.n := (valid_of_load hM).after e1
    obtain ⟨mb, mc, e2, e3, f2⟩ := treehash_of hH hl g (m := ma) (root := root) (authp := sm + p.wots_len * p.n)
      (skSeed := skSeed) (pubSeed := pubSeed) (layer := i) (tree := tr) (leafIdx := lf) hk1 hs1
      (d1.sub (p.wots_len * p.n) (p.tree_height * p.n) (by omega)) (d2.sub (p.wots_len * p.n) (p.tree_height * p.n) (by omega))
      hva hvr (th_size g) hlt w2.h0 w2.h1 w2.h2
    rw [g.sig_wots, f2, Option.bind_some, w32_lt (th_mul_lt g), add_add]
    set T := (suiteOf p H).treeRoot k s i tr with hT
    have hTl : T.length = p.n := treeRoot_length g hl _ _ _ _
    -- the state after this layer
    have e12 : store m sm (W ++ A) = some mb := by rw [← store_append' e1, hwl]; exact e2
    have hAl : A.length = p.tree_height * p.n := hal
    have hWl : W.length = p.wots_len * p.n := hwl
    have dkA : Disj skSeed p.n sm (W ++ A).length := d1.mono (Nat.le_refl _) (by rw [List.length_append]; omega)
    have dsA : Disj pubSeed p.n sm (W ++ A).length := d2.mono (Nat.le_refl _) (by rw [List.length_append]; omega)
    have hkc : load mc skSeed p.n = some k := by
      rw [load_store_disj e3 (by rw [hTl]; exact dkr), load_store_disj e12 dkA]; exact hk
    have hsc : load mc pubSeed p.n = some s := by
      rw [load_store_disj e3 (by rw [hTl]; exact dsr), load_store_disj e12 dsA]; exact hs
    have hMc : load mc root p.n = some T := by have := load_store_self e3; rwa [hTl] at this
    have hvc : Valid mc (sm + (p.wots_len * p.n + p.tree_height * p.n)) (cnt * B) :=
      ((hv.sub (p.wots_len * p.n + p.tree_height * p.n) (cnt * B) (by omega)).after e12).after e3
    obtain ⟨md, me, M', hM'l, e4, e5, f3⟩ := ih (i + 1) tr
      (Xmss.wotsSign H p M k s (setOtsAddr (setTreeAddr (setLayerAddr a i) tr) lf)).2
      (sm + (p.wots_len * p.n + p.tree_height * p.n)) mc T w2.h3 hkc hsc hMc hvc
      (d1.sub _ (cnt * B) (by omega)) (d2.sub _ (cnt * B) (by omega)) (d3.sub _ (cnt * B) (by omega))
    set R := (suiteOf p H).signLayers k s cnt (i + 1) tr T with hR
    have hRl : R.length = cnt * B := signLayers_spec_length g hl _ _ _ _ _ _
    -- commute the root update past the following layers
    have hc := store_comm (m := mb) (q := root) (r := sm + (p.wots_len * p.n + p.tree_height * p.n)) (x := T) (y := R)
      (by rw [hTl, hRl]; exact d3.sub _ (cnt * B) (by omega))
    rw [e3, Option.bind_some, e4] at hc
    obtain ⟨x1, hx1, hx2⟩ := Option.bind_eq_some_iff.mp hc.symm
    refine ⟨x1, me, M', hM'l, ?_, ?_, f3⟩
    · have := store_append' (y := R) e12
      rw [List.length_append, hWl, hAl] at this
      rw [this] at hx1
      rw [← hx1, Rfc.Suite.signLayers]
      simp only [g.hp_eq]
      rw [← hlf, ← htr, ← hW, ← hA, ← hT]
    · rw [← e5, store_over hx2 (by rw [hM'l, hTl])]

/-- The three local arrays of `xmssmt_core_sign_open` on top of the caller's memory. -/
theorem openLayers_of (hH : Xmss.coreHash P p.func p.n = some H) (hl : ∀ x, (H x).length = p.n) (g : p.Good)
    {m : Mem} {pubSeed : Ptr} {s : Bytes} (hs : load m pubSeed p.n = some s) :
    ∀ (cnt i idx : Nat) (oa la na : Addr) (sm : Ptr) (bW bL : Block) (M sig : Bytes), oa.a3 = UInt32.ofNat 0 →
      la.a3 = UInt32.ofNat 1 → na.a3 = UInt32.ofNat 2 → na.a4 = UInt32.ofNat 0 → M.length = p.n →
      bW.length = p.wots_len * p.n → bL.length = p.n →
      load m sm (cnt * ((p.wots_len + p.tree_height) * p.n)) = some sig →
      ∃ bW' bL', bW'.length = p.wots_len * p.n ∧ bL'.length = p.n ∧
        ((suiteOf p H).verifyLayers s cnt i idx M sig).length = p.n ∧
        openLayers P p ⟨m.length, 0⟩ ⟨m.length + 1, 0⟩ ⟨m.length + 2, 0⟩ pubSeed cnt i idx oa la na sm
          (m ++ [bW, bL, M.map some]) =
          some (m ++ [bW', bL', ((suiteOf p H).verifyLayers s cnt i idx M sig).map some],
            sm + cnt * ((p.wots_len + p.tree_height) * p.n)) := by
  intro cnt
  induction cnt with
  | zero =>
    intro i idx oa la na sm bW bL M sig _ _ _ _ hM hW hL _
    refine ⟨bW, bL, hW, hL, hM, ?_⟩
    rw [openLayers, Nat.zero_mul]; rfl
  | succ cnt ih =>
    intro i idx oa la na sm bW bL M sig ho hla hn hn4 hM hW hL hsig
    set B := (p.wots_len + p.tree_height) * p.n with hB
    have hBe : B = p.wots_len * p.n + p.tree_height * p.n := by rw [hB]; ring
    have hcB : (cnt + 1) * B = p.wots_len * p.n + p.tree_height * p.n + cnt * B := by rw [← hBe]; ring
    have hsl := load_length hsig
    have hsmb := load_blk hsig
    have hpsb := load_blk hs
    obtain ⟨m1, m2, m3, hm, h1, h2, h3⟩ : ∃ m1 m2 m3 : Bytes, sig = m1 ++ m2 ++ m3 ∧ m1.length = p.wots_len * p.n ∧
        m2.length = p.tree_height * p.n ∧ m3.length = cnt * B := by
      refine ⟨_, _, _, split3 sig (p.wots_len * p.n) (p.tree_height * p.n), ?_, ?_, ?_⟩ <;> simp <;> omega
    subst hm
    have ld1 : load m sm (p.wots_len * p.n) = some m1 := by
      have := load_sub (A := []) (B := m1) (C := m2 ++ m3) (by simpa using hsig)
      rw [h1] at this; exact this
    have ld2 : load m (sm + p.wots_len * p.n) (p.tree_height * p.n) = some m2 := by
      have := load_sub hsig
      rwa [h1, h2] at this
    have ld3 : load m (sm + (p.wots_len * p.n + p.tree_height * p.n)) (cnt * B) = some m3 := by
      have := load_sub (A := m1 ++ m2) (B := m3) (C := []) (by simpa using hsig)
      rwa [List.length_append, h1, h2, h3] at this
    rw [openLayers, oneShift_eq g]
    simp only [Option.bind_eq_bind]
    rw [Option.bind_some, leaf_w32 g]
    have hth := g.th_lt
    rw [if_neg (by omega)]
    simp only [Nat.shiftRight_eq_div_pow]
    set lf := idx % 2 ^ p.tree_height with hlf
    set tr := idx / 2 ^ p.tree_height with htr
    obtain ⟨w1, w2⟩ := wotsPkFromSig_eq (H := H) g (layer := i) (tree := tr) (ots := lf) s hM
      (sig := chunks p.n p.wots_len m1) (chunks_length _ _ _)
      (setOtsAddr (setTreeAddr (setLayerAddr oa i) tr) lf) ⟨rfl, rfl, rfl, ho, rfl⟩
    have hSlen : (suiteOf p H).len = p.wots_len := g.len_eq' H
    set nodes := (suiteOf p H).wotsPkFromSig s M (chunks p.n p.wots_len m1) i tr lf with hnodes
    have hnl : nodes.length = p.wots_len := by rw [hnodes, wotsPkFromSig_len, hSlen]
    have hnm : ∀ x ∈ nodes, x.length = p.n :=
      wotsPkFromSig_mem_len (suiteOf p H) hl s M (by rw [chunks_length, hSlen]) (chunks_mem_length h1) i tr lf
    have hnf : nodes.flatten.length = p.wots_len * p.n := by rw [flatten_length_of hnm, hnl]
    obtain ⟨ma, e1, f1⟩ := wotsPkFromSig_of hH hl g (m := m ++ [bW, bL, M.map some]) (pk := ⟨m.length, 0⟩) (sig := sm)
      (msg := ⟨m.length + 2, 0⟩) (pubSeed := pubSeed) (M := M) (s := s) (sb := m1)
      ⟨bW, by simp, by simp [hW]⟩ (Disj.of_blk (by show sm.blk ≠ m.length; omega))
      (Disj.of_blk (by show pubSeed.blk ≠ m.length; omega))
      (by rw [Low.ld2]; exact read_full hM) (by rw [load_left hpsb]; exact hs) (by rw [load_left hsmb]; exact ld1)
      (setOtsAddr (setTreeAddr (setLayerAddr oa i) tr) lf)
    have hma : ma = m ++ [nodes.flatten.map some, bL, M.map some] := by
      rw [w1, st0 (write_full (by rw [hnf, hW]))] at e1
      exact (Option.some.inj e1).symm
    rw [f1, Option.bind_some]
    dsimp only
    obtain ⟨l1, l2, l3⟩ := lTree_eq g hl (layer := i) (tree := tr) (lt := lf) s (nodes := nodes)
      (setLtreeAddr (setTreeAddr (setLayerAddr la i) tr) lf) ⟨rfl, rfl, rfl, hla, rfl⟩ (by rw [hnl]) hnm
    rw [w1] at e1
    obtain ⟨_, y, mb, mc, hy, e2, e3, f2⟩ := lTree_of hH hl g (m0 := m ++ [bW, bL, M.map some]) (m := ma)
      (leaf := ⟨m.length + 1, 0⟩) (pk := ⟨m.length, 0⟩) (pubSeed := pubSeed) (s := s) (nodes := nodes)
      (by rw [load_left hpsb]; exact hs) (Disj.of_blk (by show pubSeed.blk ≠ m.length; omega))
      (Disj.of_blk (by show m.length + 1 ≠ m.length; omega)) ⟨bL, by simp, by simp [hL]⟩ hnm hnl e1
      (setLtreeAddr (setTreeAddr (setLayerAddr la i) tr) lf)
    rw [f2, Option.bind_some]
    dsimp only
    set x := (Xmss.lTree H p nodes s (setLtreeAddr (setTreeAddr (setLayerAddr la i) tr) lf)).1 with hx
    have hmb : mb = m ++ [y.map some, bL, M.map some] := by
      rw [st0 (write_full (by rw [hy, hW]))] at e2
      exact (Option.some.inj e2).symm
    have hmc : mc = m ++ [y.map some, x.map some, M.map some] := by
      rw [hmb, st1 (write_full (by rw [l2, hL]))] at e3
      exact (Option.some.inj e3).symm
    have hthp := g.th_pos
    obtain ⟨nd', c1, c2, c3⟩ := computeRoot_eq (H := H) (p := p) hl (layer := i) (tree := tr) s
      (auth := chunks p.n p.tree_height m2) lf (x := x) (setTreeAddr (setLayerAddr na i) tr) ⟨rfl, rfl, rfl, hn, hn4⟩
      (by intro h; have := congrArg List.length h; rw [chunks_length] at this; simp at this; omega) l2
      (chunks_mem_length h2)
    obtain ⟨r, md, c4, c5, e4, f3⟩ := computeRoot_of hH hl (fits_of_good g) (m := mc) (root := ⟨m.length + 2, 0⟩)
      (leaf := ⟨m.length + 1, 0⟩) (auth := sm + p.wots_len * p.n) (pubSeed := pubSeed) (s := s) (x := x) (leafidx := lf)
      (nodes := chunks p.n p.tree_height m2) (by rw [hmc, load_left hpsb]; exact hs)
      (by rw [hmc, Low.ld1]; exact read_full l2) hthp (by omega) (chunks_length _ _ _) (chunks_mem_length h2)
      (by rw [hmc, load_left (by exact hsmb), chunks_flat h2]; exact ld2) ⟨M.map some, by rw [hmc]; simp, by simp [hM]⟩
      (setTreeAddr (setLayerAddr na i) tr)
    rw [c1] at c4
    have c4 := (Option.some.inj c4).symm
    subst c4
    dsimp only at c5 e4 f3
    have hmd : md = m ++ [y.map some, x.map some, ((suiteOf p H).climb s i tr 0 lf x (chunks p.n p.tree_height m2)).map some] := by
      rw [hmc, st2 (write_full (by rw [c5, List.length_map, hM]))] at e4
      exact (Option.some.inj e4).symm
    rw [g.sig_wots, f3, Option.bind_some, w32_lt (th_mul_lt g), add_add, hmd]
    dsimp only
    obtain ⟨bW', bL', v1, v2, v3, v4⟩ := ih (i + 1) tr (Xmss.wotsPkFromSig H p (chunks p.n p.wots_len m1) M s
      (setOtsAddr (setTreeAddr (setLayerAddr oa i) tr) lf)).2
      (Xmss.lTree H p nodes s (setLtreeAddr (setTreeAddr (setLayerAddr la i) tr) lf)).2 nd'
      (sm + (p.wots_len * p.n + p.tree_height * p.n)) (y.map some) (x.map some)
      ((suiteOf p H).climb s i tr 0 lf x (chunks p.n p.tree_height m2)) m3 w2.h3 l3.h3 c2.h3 c2.h4 c3
      (by simp [hy]) (by simp [l2]) ld3
    have hspec : (suiteOf p H).verifyLayers s (cnt + 1) i idx M (m1 ++ m2 ++ m3) =
        (suiteOf p H).verifyLayers s cnt (i + 1) tr
          ((suiteOf p H).climb s i tr 0 lf x (chunks p.n p.tree_height m2)) m3 := by
      rw [Rfc.Suite.verifyLayers]
      simp only [g.hp_eq, hSlen, Rfc.Suite.rootFromSig]
      have hn' : (suiteOf p H).n = p.n := rfl
      rw [hn']
      have b1 : Rfc.blocks p.n p.wots_len (m1 ++ m2 ++ m3) = chunks p.n p.wots_len m1 := by
        rw [chunks_eq_blocks]
        apply List.map_congr_left
        intro j hj
        have hj := List.mem_range.mp hj
        have hle : (j + 1) * p.n ≤ p.wots_len * p.n := Nat.mul_le_mul_right _ hj
        rw [Nat.add_mul, one_mul] at hle
        rw [List.append_assoc, List.drop_append_of_le_length (by omega),
          List.take_append_of_le_length (by simp; omega)]
      have b2 : Rfc.blocks p.n p.tree_height ((m1 ++ m2 ++ m3).drop (p.wots_len * p.n)) =
          chunks p.n p.tree_height m2 := by
        rw [List.append_assoc, List.drop_append_of_le_length (by omega),
          List.drop_of_length_le (by omega), List.nil_append, chunks_eq_blocks]
        apply List.map_congr_left
        intro j hj
        have hj := List.mem_range.mp hj
        have hle : (j + 1) * p.n ≤ p.tree_height * p.n := Nat.mul_le_mul_right _ hj
        rw [Nat.add_mul, one_mul] at hle
        rw [List.drop_append_of_le_length (by omega), List.take_append_of_le_length (by simp; omega)]
      have b3 : (m1 ++ m2 ++ m3).drop ((p.wots_len + p.tree_height) * p.n) = m3 := by
        rw [List.drop_append_of_le_length (by simp; omega), List.drop_of_length_le (by simp; omega),
          List.nil_append]
      rw [b1, b2, b3, l1]
    refine ⟨bW', bL', v1, v2, by rw [hspec]; exact v3, ?_⟩
    rw [hspec, v4, hcB, add_add]

end Xmss.Low
