import Verif.Proof.LowOpen
/-
The pointer-level model of the simple implementation: key generation and the OIDs of xmss.c.
-/
namespace Xmss.Low

variable {P : Prims} {H : Bytes → Bytes} {p : Params}

set_option maxHeartbeats 1600000 in
theorem coreSeedKeypair_of (hH : Xmss.coreHash P p.func p.n = some H) (hl : ∀ x, (H x).length = p.n) (g : p.Good)
    {m : Mem} {pk sk seed : Ptr} {A B C : Bytes} (hseed : load m seed (3 * p.n) = some (A ++ B ++ C))
    (hA : A.length = p.n) (hB : B.length = p.n) (hC : C.length = p.n)
    (hvp : Valid m pk (2 * p.n)) (hvs : Valid m sk (p.index_bytes + 4 * p.n))
    (dps : Disj pk (2 * p.n) sk (p.index_bytes + 4 * p.n)) (dep : Disj seed (3 * p.n) pk (2 * p.n))
    (des : Disj seed (3 * p.n) sk (p.index_bytes + 4 * p.n)) :
    ∃ m1 m2, store m pk ((suiteOf p H).root A C ++ C) = some m1 ∧
      store m1 sk (List.replicate p.index_bytes 0 ++ A ++ B ++ (suiteOf p H).root A C ++ C) = some m2 ∧
      coreSeedKeypair P p m pk sk seed = some m2 := by
  have hn := g.n_pos
  have hn16 := (fits_of_good g).n_lt
  have hth := g.th_pos
  have hd := g.d_pos
  have h1632 : (2 : Nat) ^ 16 * 4 < 2 ^ 32 := by norm_num
  have hseedb := load_blk hseed
  have hpkb := hvp.blk
  have hskb := hvs.blk
  have e1 : load m seed (2 * p.n) = some (A ++ B) := by
    have := load_sub (A := []) (B := A ++ B) (C := C) (by simpa using hseed)
    rw [List.length_append, hA, hB, ← two_mul] at this; exact this
  have e2 : load m (seed + 2 * p.n) p.n = some C := by
    have := load_sub (A := A ++ B) (B := C) (C := []) (by simpa using hseed)
    rwa [List.length_append, hA, hB, ← two_mul, hC] at this
  -- the cells of the two key buffers
  obtain ⟨K, hKl, hK⟩ := hvs.storeC
  obtain ⟨k0, k1, k3, k4, rfl, i0, i1, i3, i4⟩ : ∃ k0 k1 k3 k4 : Block, K = k0 ++ k1 ++ k3 ++ k4 ∧
      k0.length = p.index_bytes ∧ k1.length = 2 * p.n ∧ k3.length = p.n ∧ k4.length = p.n := by
    refine ⟨_, _, _, _, split4 K p.index_bytes (2 * p.n) p.n, ?_, ?_, ?_, ?_⟩ <;> simp <;> omega
  set Z : Bytes := List.replicate p.index_bytes 0 with hZ
  have hZl : Z.length = p.index_bytes := by simp [hZ]
  have hAB : (A ++ B).length = 2 * p.n := by rw [List.length_append]; omega
  obtain ⟨Xa, sa, ta⟩ := storeC_mid (A := []) (B := k0) (C := k1 ++ k3 ++ k4) (x := Z)
    (by simpa [List.append_assoc] using hK) (by omega)
  have ta : store m sk Z = some Xa := ta
  obtain ⟨Xb, sb, tb⟩ := storeC_mid (A := Z.map some) (B := k1) (C := k3 ++ k4) (x := A ++ B)
    (by simpa [List.append_assoc] using sa) (by omega)
  obtain ⟨Xc, sc, tc⟩ := storeC_mid (A := Z.map some ++ (A ++ B).map some ++ k3) (B := k4) (C := []) (x := C)
    (by simpa [List.append_assoc] using sb) (by omega)
  have hZm : (Z.map some).length = p.index_bytes := by rw [List.length_map, hZl]
  have hZ3 : (Z.map some ++ (A ++ B).map some ++ k3).length = p.index_bytes + 3 * p.n := by
    simp only [List.length_append, List.length_map] at hAB ⊢; omega
  rw [hZm] at tb
  rw [hZ3] at tc
  have hXal : Xa.length = m.length := storeC_length sa
  have hXbl : Xb.length = m.length := storeC_length sb
  have hXcl : Xc.length = m.length := storeC_length sc
  have la : ([] ++ Z.map some ++ (k1 ++ k3 ++ k4)).length = p.index_bytes + 4 * p.n := by
    simp only [List.length_append, List.length_map, List.length_nil]; omega
  have lb : (Z.map some ++ (A ++ B).map some ++ (k3 ++ k4)).length = p.index_bytes + 4 * p.n := by
    simp only [List.length_append, List.length_map] at hAB ⊢; omega
  have lc : (Z.map some ++ (A ++ B).map some ++ k3 ++ C.map some ++ []).length = p.index_bytes + 4 * p.n := by
    simp only [List.length_append, List.length_map, List.length_nil] at hAB ⊢; omega
  have vpc : Valid Xc pk (p.n + p.n) := by rw [← two_mul]; exact ((hvp.after ta).after tb).after tc
  obtain ⟨q0, q1, j0, j1, hq⟩ := vpc.cells2
  obtain ⟨Xd, sd, td⟩ := storeC_mid (A := q0) (B := q1) (C := []) (x := C) (by simpa using hq) (by omega)
  rw [j0] at td
  rw [List.append_nil] at sd
  have hXdl : Xd.length = m.length := by rw [storeC_length sd, hXcl]
  have ld : (q0 ++ C.map some).length = 2 * p.n := by simp only [List.length_append, List.length_map]; omega
  -- run the program up to treehash
  have hpos : 0 < p.tree_height * p.n := Nat.mul_pos hth hn
  rw [coreSeedKeypair, w32_lt (th_mul_lt g), alloc_pos hpos]
  simp only [Option.bind_eq_bind]
  rw [Option.bind_some]
  dsimp only
  set L : Mem := [List.replicate (p.tree_height * p.n) none] with hL
  rw [w32_lt (x := 2 * p.n) (by omega), w32_lt (x := 3 * p.n) (by omega), store_left_some ta, Option.bind_some,
    memcpy_eq (x := A ++ B) (by
      rw [load_left (by omega), load_storeC_disj sa (by rw [la]; exact des.mono (by omega) (Nat.le_refl _))]; exact e1)
      (((des.mono (by omega) (Nat.le_refl _)).sub p.index_bytes (2 * p.n) (by omega)).symm), store_left_some tb,
    Option.bind_some]
  have tc' : store Xb (sk + p.index_bytes + 3 * p.n) C = some Xc := by rw [add_add]; exact tc
  have td' : store Xc (pk + p.n) C = some Xd := td
  have lC : load Xc (sk + p.index_bytes + 3 * p.n) p.n = some C := by have := load_store_self tc'; rwa [hC] at this
  rw [memcpy_eq (x := C) (by
      rw [load_left (by show seed.blk < _; omega), load_storeC_disj sb (by
        rw [lb]; exact des.sub_left _ _ (by omega))]; exact e2)
      (by rw [add_add]; exact (((des.sub_left (2 * p.n) p.n (by omega)).sub (p.index_bytes + 3 * p.n) p.n (by omega)).symm)),
    store_left_some tc', Option.bind_some,
    memcpy_eq (x := C) (by rw [load_left (by show sk.blk < _; omega)]; exact lC)
      (by rw [add_add]; exact (dps.sub_left p.n p.n (by omega)).sub _ _ (by omega)),
    store_left_some td', Option.bind_some]
  -- treehash
  have dsk : ∀ o, o + p.n ≤ p.index_bytes + 4 * p.n → Disj (sk + o) p.n pk (2 * p.n) := fun o ho => dps.symm.sub_left o p.n ho
  have lA : load Xd (sk + p.index_bytes) p.n = some A := by
    rw [load_storeC_disj sd (by rw [ld]; exact dsk _ (by omega))]
    have h := load_storeC (A := Z.map some) (x := A) (C := B.map some ++ k3 ++ C.map some)
      (by simpa [List.append_assoc] using sc)
    rwa [hZm, hA] at h
  have lS : load Xd (pk + p.n) p.n = some C := by have := load_store_self td; rwa [hC] at this
  obtain ⟨n1, n2, u1, u2, u3⟩ := treehash_of hH hl g (m := Xd ++ L) (root := pk) (authp := ⟨m.length, 0⟩)
    (skSeed := sk + p.index_bytes) (pubSeed := pk + p.n) (k := A) (s := C) (leafIdx := 0)
    (sub := setLayerAddr Addr.zero (usub p.d 1)) (layer := usub p.d 1) (tree := 0)
    (by rw [load_left (by show sk.blk < _; omega)]; exact lA) (by rw [load_left (by show pk.blk < _; omega)]; exact lS)
    (Disj.of_blk (by show sk.blk ≠ m.length; omega)) (Disj.of_blk (by show pk.blk ≠ m.length; omega))
    ⟨List.replicate (p.tree_height * p.n) none, by rw [← hXdl, hL]; simp, by simp⟩
    ((show Valid Xd pk p.n by simpa using (vpc.after td').sub 0 p.n (by omega)).left) (th_size g) (Nat.two_pow_pos _)
    rfl rfl rfl
  have hdlt : p.d < 2 ^ 32 := by
    have h1 := g.sig_eq'
    have h2 := g.sig_lt
    have h3 : 0 < (p.wots_len + p.tree_height) * p.n := Nat.mul_pos (by omega) hn
    have h4 : p.d ≤ p.d * ((p.wots_len + p.tree_height) * p.n) := Nat.le_mul_of_pos_right _ h3
    omega
  have hroot : (suiteOf p H).treeRoot A C (usub p.d 1) 0 = (suiteOf p H).root A C := by
    rw [usub_eq (by omega) hdlt]; rfl
  rw [u3, Option.bind_some]
  rw [hroot] at u2
  set T := (suiteOf p H).root A C with hT
  have hTl : T.length = p.n := treeRoot_length g hl _ _ _ _
  -- the memory after treehash
  have hAu := authPath_flat_length g hl A C (usub p.d 1) 0 0
  rw [← hXdl, store_right0] at u1
  have hw : store L ⟨0, 0⟩ ((suiteOf p H).authPath A C (usub p.d 1) 0 0).flatten =
      some [((suiteOf p H).authPath A C (usub p.d 1) 0 0).flatten.map some] :=
    store_eq_some.mpr ⟨_, _, rfl, write_full (by rw [hAu, List.length_replicate]), rfl⟩
  rw [hw, Option.map_some] at u1
  have u1 := (Option.some.inj u1).symm
  obtain ⟨Xe, se, te⟩ := storeC_mid (A := []) (B := q0) (C := C.map some) (x := T) (by simpa using sd) (by omega)
  have te : store Xd pk T = some Xe := te
  rw [u1, store_left_some te] at u2
  have u2 := (Option.some.inj u2).symm
  have se' : store Xc pk (T ++ C) = some Xe := by rw [← se, ← storeC_map]; congr 1; simp
  have hXel : Xe.length = m.length := by rw [store_length se', hXcl]
  rw [u2, add_add]
  -- the root goes into the secret key
  obtain ⟨Xg, sg, tg⟩ := storeC_mid (A := Z.map some ++ (A ++ B).map some) (B := k3) (C := C.map some) (x := T)
    (by simpa [List.append_assoc] using sc) (by omega)
  have hZ2 : (Z.map some ++ (A ++ B).map some).length = p.index_bytes + 2 * p.n := by
    simp only [List.length_append, List.length_map] at hAB ⊢; omega
  rw [hZ2] at tg
  have sg' : store m sk (Z ++ A ++ B ++ T ++ C) = some Xg := by
    rw [← sg, ← storeC_map]; congr 1; simp
  have hTC : (T ++ C).length = 2 * p.n := by rw [List.length_append]; omega
  have hfull : (Z ++ A ++ B ++ T ++ C).length = p.index_bytes + 4 * p.n := by simp only [List.length_append]; omega
  have c1 := store_comm (m := Xc) (q := pk) (r := sk + (p.index_bytes + 2 * p.n)) (x := T ++ C) (y := T)
    (by rw [hTC, hTl]; exact dps.sub _ _ (by omega))
  rw [se', Option.bind_some, tg, Option.bind_some] at c1
  have c2 := store_comm (m := m) (q := pk) (r := sk) (x := T ++ C) (y := Z ++ A ++ B ++ T ++ C)
    (by rw [hTC, hfull]; exact dps)
  rw [sg', Option.bind_some] at c2
  obtain ⟨m1, hm1⟩ := hvp.store (x := T ++ C) (by omega)
  rw [hm1, Option.bind_some] at c2
  obtain ⟨Xf, hXf⟩ := (hvs.after hm1).store (x := Z ++ A ++ B ++ T ++ C) (by omega)
  rw [hXf] at c2
  rw [← c2] at c1
  have lT : load Xe pk p.n = some T := by
    have := load_sub (A := []) (B := T) (C := C) (by simpa using load_store_self se')
    rw [hTl] at this; exact this
  rw [memcpy_eq (x := T) (by rw [load_left (by omega)]; exact lT)
    ((dps.mono (by omega) (Nat.le_refl _)).sub _ _ (by omega)).symm, store_left_some c1, Option.bind_some,
    release_append (by rw [store_length hXf, store_length hm1])]
  exact ⟨m1, Xf, hm1, hXf, rfl⟩

theorem coreKeypair_of (hH : Xmss.coreHash P p.func p.n = some H) (hl : ∀ x, (H x).length = p.n) (g : p.Good)
    {m : Mem} {pk sk : Ptr} {A B C : Bytes} (hA : A.length = p.n) (hB : B.length = p.n) (hC : C.length = p.n)
    (hvp : Valid m pk (2 * p.n)) (hvs : Valid m sk (p.index_bytes + 4 * p.n))
    (dps : Disj pk (2 * p.n) sk (p.index_bytes + 4 * p.n)) :
    ∃ m1 m2, store m pk ((suiteOf p H).root A C ++ C) = some m1 ∧
      store m1 sk (List.replicate p.index_bytes 0 ++ A ++ B ++ (suiteOf p H).root A C ++ C) = some m2 ∧
      coreKeypair P p m pk sk (A ++ B ++ C) = some m2 := by
  have hn := g.n_pos
  have hn16 := (fits_of_good g).n_lt
  have h1632 : (2 : Nat) ^ 16 * 4 < 2 ^ 32 := by norm_num
  have hlen : (A ++ B ++ C).length = 3 * p.n := by simp only [List.length_append]; omega
  have hpkb := hvp.blk
  have hskb := hvs.blk
  rw [coreKeypair, w32_lt (x := 3 * p.n) (by omega), alloc_pos (by omega)]
  simp only [Option.bind_eq_bind]
  rw [Option.bind_some]
  dsimp only
  have hw : store (m ++ [List.replicate (3 * p.n) none]) ⟨m.length, 0⟩ (A ++ B ++ C) =
      some (m ++ [(A ++ B ++ C).map some]) := by
    rw [store_right0]
    have : store [List.replicate (3 * p.n) none] ⟨0, 0⟩ (A ++ B ++ C) = some [(A ++ B ++ C).map some] :=
      store_eq_some.mpr ⟨_, _, rfl, write_full (by rw [hlen, List.length_replicate]), rfl⟩
    rw [this]; rfl
  rw [hw, Option.bind_some]
  obtain ⟨m1, m2, e1, e2, e3⟩ := coreSeedKeypair_of hH hl g (m := m ++ [(A ++ B ++ C).map some]) (pk := pk) (sk := sk)
    (seed := ⟨m.length, 0⟩) (A := A) (B := B) (C := C)
    (by rw [load_right0]; exact read_full hlen) hA hB hC hvp.left hvs.left dps
    (Disj.of_blk (by show m.length ≠ pk.blk; omega)) (Disj.of_blk (by show m.length ≠ sk.blk; omega))
  rw [e3, Option.bind_some]
  rw [store_left hpkb] at e1
  obtain ⟨M1, f1, f2⟩ := Option.map_eq_some_iff.mp e1
  have hM1 : M1.length = m.length := store_length f1
  rw [← f2, store_left (by omega)] at e2
  obtain ⟨M2, f3, f4⟩ := Option.map_eq_some_iff.mp e2
  refine ⟨M1, M2, f1, f3, ?_⟩
  rw [← f4, release_append (by rw [store_length f3, hM1])]

/-! ### OIDs -/

theorem pair_step {m X Y : Mem} {q r : Ptr} {A B C A' B' C' : Block} {x : Bytes} (h1 : storeC m q (A ++ B ++ C) = some X)
    (h2 : storeC X r (A' ++ B' ++ C') = some Y) (hB : B.length = x.length) (hB' : B'.length = x.length)
    (hd : Disj q (A ++ B ++ C).length r (A' ++ B' ++ C').length) :
    ∃ X' Y' Z, storeC m q (A ++ x.map some ++ C) = some X' ∧ storeC X' r (A' ++ x.map some ++ C') = some Y' ∧
      store Y (q + A.length) x = some Z ∧ store Z (r + A'.length) x = some Y' := by
  obtain ⟨X', s1, t1⟩ := storeC_mid (x := x) h1 hB.symm
  obtain ⟨Z, t2, s2⟩ := storeC_store_comm h2 t1 (hd.sub_left _ _ (by simp only [List.length_append]; omega))
  obtain ⟨Y', s3, t3⟩ := storeC_mid (x := x) s2 hB'.symm
  exact ⟨X', Y', Z, s1, s3, t2, t3⟩

theorem cells4 {C : Block} (h : C.length = 4) : ∃ c0 c1 c2 c3, C = [c0, c1, c2, c3] := by
  match C, h with
  | [c0, c1, c2, c3], _ => exact ⟨c0, c1, c2, c3, rfl⟩

theorem oidWriteLoop_of {m : Mem} {pk sk : Ptr} {oid : Nat} (hvp : Valid m pk 4) (hvs : Valid m sk 4) (d : Disj pk 4 sk 4) :
    ∃ m1 m2, store m pk (oidBytes oid) = some m1 ∧ store m1 sk (oidBytes oid) = some m2 ∧
      oidWriteLoop pk sk oid oidLen 0 m = some m2 := by
  obtain ⟨Cp, hp, sp⟩ := hvp.storeC
  obtain ⟨Cs, hs, ss⟩ := hvs.storeC
  obtain ⟨p0, p1, p2, p3, rfl⟩ := cells4 hp
  obtain ⟨s0, s1, s2, s3, rfl⟩ := cells4 hs
  set b0 := UInt8.ofNat ((oid >>> 24) &&& 0xff) with hb0
  set b1 := UInt8.ofNat ((oid >>> 16) &&& 0xff) with hb1
  set b2 := UInt8.ofNat ((oid >>> 8) &&& 0xff) with hb2
  set b3 := UInt8.ofNat (oid &&& 0xff) with hb3
  obtain ⟨X1, Y1, Z1, a1, c1, f1, g1⟩ := pair_step (A := [p0, p1, p2]) (B := [p3]) (C := []) (A' := [s0, s1, s2]) (B' := [s3])
    (C' := []) (x := [b3]) sp ss rfl rfl d
  obtain ⟨X2, Y2, Z2, a2, c2, f2, g2⟩ := pair_step (A := [p0, p1]) (B := [p2]) (C := [some b3]) (A' := [s0, s1]) (B' := [s2])
    (C' := [some b3]) (x := [b2]) a1 c1 rfl rfl d
  obtain ⟨X3, Y3, Z3, a3, c3, f3, g3⟩ := pair_step (A := [p0]) (B := [p1]) (C := [some b2, some b3]) (A' := [s0]) (B' := [s1])
    (C' := [some b2, some b3]) (x := [b1]) a2 c2 rfl rfl d
  obtain ⟨X4, Y4, Z4, a4, c4, f4, g4⟩ := pair_step (A := []) (B := [p0]) (C := [some b1, some b2, some b3]) (A' := []) (B' := [s0])
    (C' := [some b1, some b2, some b3]) (x := [b0]) a3 c3 rfl rfl d
  refine ⟨X4, Y4, ?_, ?_, ?_⟩
  · rw [← a4, ← storeC_map]; rfl
  · rw [← c4, ← storeC_map]; rfl
  · have f1 : store m (pk + 3) [b3] = some Z1 := f1
    have g1 : store Z1 (sk + 3) [b3] = some Y1 := g1
    have f2 : store Y1 (pk + 2) [b2] = some Z2 := f2
    have g2 : store Z2 (sk + 2) [b2] = some Y2 := g2
    have f3 : store Y2 (pk + 1) [b1] = some Z3 := f3
    have g3 : store Z3 (sk + 1) [b1] = some Y3 := g3
    have f4 : store Y3 (pk + 0) [b0] = some Z4 := f4
    have g4 : store Z4 (sk + 0) [b0] = some Y4 := g4
    have e3 : UInt8.ofNat ((oid >>> (8 * 0)) &&& 0xFF) = b3 := rfl
    have e2 : UInt8.ofNat ((oid >>> (8 * (0 + 1))) &&& 0xFF) = b2 := rfl
    have e1 : UInt8.ofNat ((oid >>> (8 * (0 + 1 + 1))) &&& 0xFF) = b1 := rfl
    have e0 : UInt8.ofNat ((oid >>> (8 * (0 + 1 + 1 + 1))) &&& 0xFF) = b0 := rfl
    have o3 : oidLen - 0 - 1 = 3 := rfl
    have o2 : oidLen - (0 + 1) - 1 = 2 := rfl
    have o1 : oidLen - (0 + 1 + 1) - 1 = 1 := rfl
    have o0 : oidLen - (0 + 1 + 1 + 1) - 1 = 0 := rfl
    have ho : oidLen = 0 + 1 + 1 + 1 + 1 := rfl
    conv_lhs => rw [ho]
    simp only [oidWriteLoop, Option.bind_eq_bind]
    rw [e3, o3, f1, Option.bind_some, g1, Option.bind_some, e2, o2, f2, Option.bind_some, g2, Option.bind_some, e1, o1, f3,
      Option.bind_some, g3, Option.bind_some, e0, o0, f4, Option.bind_some, g4, Option.bind_some]

theorem oidReadLoop_of {m : Mem} {key : Ptr} {b0 b1 b2 b3 : UInt8} (h : load m key 4 = some [b0, b1, b2, b3])
    (hb : b0.toNat < 128) : oidReadLoop m key oidLen 0 0 =
      some ((((0 ||| b3.toNat) ||| (b2.toNat <<< 8)) ||| (b1.toNat <<< 16)) ||| (b0.toNat <<< 24)) := by
  have l3 : load m (key + 3) 1 = some [b3] := load_sub (A := [b0, b1, b2]) (B := [b3]) (C := []) h
  have l2 : load m (key + 2) 1 = some [b2] := load_sub (A := [b0, b1]) (B := [b2]) (C := [b3]) h
  have l1 : load m (key + 1) 1 = some [b1] := load_sub (A := [b0]) (B := [b1]) (C := [b2, b3]) h
  have l0 : load m (key + 0) 1 = some [b0] := load_sub (A := []) (B := [b0]) (C := [b1, b2, b3]) h
  have ho : oidLen = 0 + 1 + 1 + 1 + 1 := rfl
  have o3 : oidLen - 0 - 1 = 3 := rfl
  have o2 : oidLen - (0 + 1) - 1 = 2 := rfl
  have o1 : oidLen - (0 + 1 + 1) - 1 = 1 := rfl
  have o0 : oidLen - (0 + 1 + 1 + 1) - 1 = 0 := rfl
  have t1 := b1.toNat_lt
  have t2 := b2.toNat_lt
  have t3 := b3.toNat_lt
  conv_lhs => rw [ho]
  simp only [oidReadLoop, Option.bind_eq_bind]
  rw [o3, l3, Option.bind_some, List.headD_cons, if_neg (by norm_num; omega), o2, l2, Option.bind_some, List.headD_cons,
    if_neg (by norm_num; omega), o1, l1, Option.bind_some, List.headD_cons, if_neg (by norm_num; omega), o0, l0,
    Option.bind_some, List.headD_cons, if_neg (by norm_num; omega)]
  rfl

end Xmss.Low
