import Verif.Model.LowVectors
import Verif.Props.LowTest
import Verif.Props.Vectors
/-
C89, continued: test/vectors on the explicit memory.
-/
namespace Xmss.Low

variable {P : Prims} {f : Family} {oid : Nat} {p : Params} {H : Bytes → Bytes}

/-- `print_hash` prints the fingerprint and leaves memory as it was. -/
theorem printHashL_of {m : Mem} {buf : Ptr} {x : Bytes} {n : Nat} (h : Holds m buf x) (hn : x.length = n) :
    printHashL m buf n = some (printHash x, m) := by
  have hl := h.load hn
  have hb : buf.blk < m.length := load_blk hl
  have hlen : (Xmss.shake128 10 x).length = 10 := (C38_shake128 10 x).1
  have hl' : load (m ++ [List.replicate 10 none]) buf n = some x := by rw [load_left hb]; exact hl
  have hw : store (m ++ [List.replicate 10 none]) ⟨m.length, 0⟩ (Xmss.shake128 10 x) = some (m ++ [(Xmss.shake128 10 x).map some]) := by
    rw [store_right0]
    have : store [List.replicate 10 none] ⟨0, 0⟩ (Xmss.shake128 10 x) = some [(Xmss.shake128 10 x).map some] :=
      store_eq_some.mpr ⟨_, _, rfl, write_full (by rw [hlen, List.length_replicate]), rfl⟩
    rw [this]; rfl
  rw [printHashL, alloc_pos (by decide)]
  simp only [Option.bind_eq_bind, Option.bind_some]
  rw [shake128_of hl' (by simp) (by decide), hw, Option.bind_some, load_right0,
    show load [(Xmss.shake128 10 x).map some] ⟨0, 0⟩ 10 = some (Xmss.shake128 10 x) from read_full hlen, Option.bind_some,
    release_append rfl]
  rfl

/-- One byte behind the bytes `x`. -/
theorem store_snoc {m : Mem} {q : Ptr} {x : Bytes} {b : UInt8} {len : Nat} (hr : Room m q len) (hx : Holds m q x) (hlt : x.length < len) :
    ∃ m', store m (q + x.length) [b] = some m' ∧ Holds m' q (x ++ [b]) ∧ OnlyIn m m' [(q, len)] := by
  have hr' : Room m (q + x.length) 1 := hr.imp fun o h => ⟨h.1, by have := h.2; simp only [add_off]; omega⟩
  obtain ⟨m', h1, h2, h3⟩ := stF (x := [b]) hr' rfl
  refine ⟨m', h1, Holds.append (hx.keep h2 ?_) h3, h2.mono ?_⟩
  · intro r hr
    rw [List.mem_singleton.mp hr]
    right; left; simp
  · intro y i h
    rw [within_one] at h ⊢
    simp only [add_blk, add_off] at h
    omega

theorem seedLoop_of {seed : Ptr} {n : Nat} : ∀ (k i : Nat) (m : Mem), i + k = n → Room m seed n →
    Holds m seed ((List.range i).map UInt8.ofNat) →
    ∃ m', seedLoop seed k i m = some m' ∧ Holds m' seed ((List.range n).map UInt8.ofNat) ∧ OnlyIn m m' [(seed, n)]
  | 0, i, m, hi, hr, hh => ⟨m, rfl, by rw [← hi]; exact hh, onlyIn_refl _ _⟩
  | k + 1, i, m, hi, hr, hh => by
    obtain ⟨m1, h1, h2, h3⟩ := store_snoc (b := UInt8.ofNat i) hr hh (by simp; omega)
    rw [List.length_map, List.length_range] at h1
    obtain ⟨m2, h4, h5, h6⟩ := seedLoop_of k (i + 1) m1 (by omega) (hr.keep h3) (by
      rw [List.range_succ, List.map_append]; exact h2)
    refine ⟨m2, ?_, h5, h3.trans h6 (fun _ _ h => h) (fun _ _ h => h)⟩
    rw [seedLoop]
    simp only [Option.bind_eq_bind]
    rw [h1, Option.bind_some, h4]

theorem keep_one {m m' : Mem} {b c n i : Nat} {y : Bytes} (h : Holds m ⟨b, i⟩ y) (o : OnlyIn m m' [(⟨c, 0⟩, n)]) (hne : b ≠ c) :
    Holds m' ⟨b, i⟩ y := by
  refine h.keep o ?_
  intro r hr
  rw [List.mem_singleton.mp hr]
  exact apart_blk hne

/-- **C89 (test/vectors, XMSS and XMSS^MT).**  The function on uninitialised memory prints the line of C68, for every parameter set of
height at most 31. -/
theorem C89_vectors_xmss (e : Registry.Entry) (he : e ∈ f.registry) (h31 : e.h ≤ 31) (hp' : p = params16 slowSkBytes (funcOf e.family) e.n e.pad e.h e.d 0)
    (hH : Xmss.coreHash P p.func p.n = some H) : vectorsXmssL P e.oid (f = .xmssmt) = some (xmssLine f p H e.oid) := by
  obtain ⟨hp, _⟩ := registry_parse he
  rw [← hp'] at hp
  obtain ⟨g, hskb, _, _⟩ := Family.facts (P := P) hp
  have hHl := Family.hash_length hp hH
  have hss := sig_size hp
  have hh : p.full_height = e.h := by rw [hp']; rfl
  have hlt : 2 ^ (p.full_height - 1) < 2 ^ p.full_height - 1 := by rw [hh]; exact middle_lt e he
  have hn := g.n_pos
  have hn16 := (fits_of_good g).n_lt
  have h1632 : (2 : Nat) ^ 16 * 4 < 2 ^ 32 := by norm_num
  have hpk := g.pk_eq
  have hfits := g.idx_fits
  have hil := g.idx_le
  have hfh : 1 ≤ p.full_height := by
    have := Nat.mul_le_mul (show 1 ≤ p.tree_height from g.th_pos) (show 1 ≤ p.d from g.d_pos)
    rw [g.height] at this
    omega
  have hib : 0 < p.index_bytes := by
    by_contra h0
    have h0 : p.index_bytes = 0 := by omega
    rw [h0, pow_zero] at hfits
    have := Nat.pow_le_pow_right (show 0 < 2 by norm_num) hfh
    omega
  have hparse : (if decide (f = .xmssmt) = true then xmssmtParseOid slowSkBytes e.oid else xmssParseOid slowSkBytes e.oid) = some p := by
    cases f with
    | xmss => rw [if_neg (by simp)]; exact hp
    | xmssmt => rw [if_pos (by simp)]; exact hp
  obtain ⟨A, hA⟩ : ∃ A, A = counting 1 0 p.n := ⟨_, rfl⟩
  obtain ⟨B, hB⟩ : ∃ B, B = counting 1 p.n p.n := ⟨_, rfl⟩
  obtain ⟨C, hC⟩ : ∃ C, C = counting 1 (2 * p.n) p.n := ⟨_, rfl⟩
  have lA : A.length = p.n := by rw [hA]; exact counting_length _ _ _
  have lB : B.length = p.n := by rw [hB]; exact counting_length _ _ _
  have lC : C.length = p.n := by rw [hC]; exact counting_length _ _ _
  obtain ⟨R, hR⟩ : ∃ R, R = (suiteOf p H).root A C := ⟨_, rfl⟩
  have lR : R.length = p.n := by rw [hR]; exact node_length g hHl _ _ _ _ _ _
  rw [vectorsXmssL, hparse]
  simp only [Option.bind_eq_bind]
  rw [Option.bind_some, w32_lt (x := p.n * 3) (by omega), w32_lt (x := p.sig_bytes + 1) (by omega), w32_lt (x := 3 * p.n) (by omega), alloc_nil (by omega),
    Option.bind_some]
  dsimp only
  rw [alloc_pos (by omega), Option.bind_some, alloc_pos (by omega), Option.bind_some, alloc_pos (by decide), Option.bind_some]
  simp only [List.cons_append, List.nil_append, List.length_cons, List.length_nil, Nat.zero_add, Nat.reduceAdd]
  have hst : store [List.replicate (p.n * 3) none, List.replicate p.pk_bytes none, List.replicate p.sk_bytes none, List.replicate 1 none] ⟨3, 0⟩ [37] =
      some [List.replicate (p.n * 3) none, List.replicate p.pk_bytes none, List.replicate p.sk_bytes none, [some 37]] := rfl
  rw [hst, Option.bind_some, alloc_pos (by omega), Option.bind_some]
  simp only [List.cons_append, List.nil_append, List.length_cons, List.length_nil, Nat.zero_add, Nat.reduceAdd]
  obtain ⟨m0, hm0⟩ : ∃ m0 : Mem, m0 = [List.replicate (p.n * 3) none, List.replicate p.pk_bytes none, List.replicate p.sk_bytes none,
    [some 37], List.replicate (p.sig_bytes + 1) none] := ⟨_, rfl⟩
  rw [← hm0]
  have r0 : Room m0 ⟨0, 0⟩ (3 * p.n) := room_fresh (by rw [hm0]; rfl) (by simp; omega)
  have r1 : Room m0 ⟨1, 0⟩ (2 * p.n) := room_fresh (by rw [hm0]; rfl) (by simp; omega)
  have r2 : Room m0 ⟨2, 0⟩ (p.index_bytes + 4 * p.n) := room_fresh (by rw [hm0]; rfl) (by simp; omega)
  have h3 : Holds m0 ⟨3, 0⟩ [37] := holds_block (by rw [hm0]; rfl)
  have r4 : Room m0 ⟨4, 0⟩ (p.sig_bytes + 1) := room_fresh (by rw [hm0]; rfl) (by simp)
  obtain ⟨m1, a1, a2, a3⟩ := seedLoop_of (3 * p.n) 0 m0 (by omega) r0 (holds_nil r0)
  rw [counting_split, ← hA, ← hB, ← hC] at a2
  rw [a1, Option.bind_some]
  obtain ⟨m2, m3, b1, b2, b3⟩ := coreSeedKeypair_of hH hHl g (pk := ⟨1, 0⟩) (sk := ⟨2, 0⟩) (seed := ⟨0, 0⟩)
    (a2.load (n := 3 * p.n) (by simp only [List.length_append]; omega)) lA lB lC (r1.keep a3) (r2.keep a3) (apart_blk (by omega)) (apart_blk (by omega)) (apart_blk (by omega))
  rw [← hR] at b1 b2
  rw [b3, Option.bind_some]
  have o2 := store_onlyIn b1
  have o3 := store_onlyIn b2
  have q1 : Holds m3 ⟨1, 0⟩ (R ++ C) := keep_one (store_holds b1) o3 (by omega)
  have q2 : Holds m3 ⟨2, 0⟩ (List.replicate p.index_bytes 0 ++ (A ++ B ++ R ++ C)) := by
    have := store_holds b2
    simpa only [List.append_assoc] using this
  have q3 : Holds m3 ⟨3, 0⟩ [37] := keep_one (keep_one (keep_one h3 a3 (by omega)) o2 (by omega)) o3 (by omega)
  have hshift : shiftInt (usub p.full_height 1) = some (2 ^ (p.full_height - 1)) := by
    rw [usub_eq hfh (lt_trans g.fh_lt (by norm_num)), shiftInt, if_pos (by omega), Nat.shiftLeft_eq, one_mul]
  have h64 : 2 ^ (p.full_height - 1) < 2 ^ 64 := Nat.pow_lt_pow_right (by norm_num) (by have := g.fh_lt; omega)
  have hu : (Xmss.ullToBytes p.index_bytes (2 ^ (p.full_height - 1))).length = p.index_bytes := by rw [ullToBytes_eq, toByte_length]
  obtain ⟨m4, c1, c2, c3⟩ := stF (q2.left.1) (x := Xmss.ullToBytes p.index_bytes (2 ^ (p.full_height - 1))) (by rw [hu, List.length_replicate])
  rw [hshift, Option.bind_some, ullToBytes_of (Or.inl hib) (by omega) h64, c1, Option.bind_some]
  rw [ullToBytes_eq] at c3
  rw [List.length_replicate] at c2
  have s2 : Holds m4 ⟨2, 0⟩ (Rfc.toByte (2 ^ (p.full_height - 1)) p.index_bytes ++ (A ++ B ++ R ++ C)) := by
    refine c3.append ?_
    rw [toByte_length]
    have := q2.right
    rw [List.length_replicate] at this
    refine this.keep c2 ?_
    intro r hr
    rw [List.mem_singleton.mp hr]
    right; right; simp
  have s1 : Holds m4 ⟨1, 0⟩ (R ++ C) := keep_one q1 c2 (by omega)
  have s3 : Holds m4 ⟨3, 0⟩ [37] := keep_one q3 c2 (by omega)
  have s4 : Room m4 ⟨4, 0⟩ (p.sig_bytes + 1) := (((r4.keep a3).keep o2).keep o3).keep c2
  have hs := (coreSign_of hH hHl g hskb (m := m4) (sk := ⟨2, 0⟩) (sm := ⟨4, 0⟩) (msg := ⟨3, 0⟩) (ib := Rfc.toByte (2 ^ (p.full_height - 1)) p.index_bytes)
    (k := A) (f := B) (root := R) (s := C) (M := [37])
    (by
      have := s2.load (n := p.index_bytes + 4 * p.n) (by simp only [List.length_append, toByte_length]; omega)
      simpa only [List.append_assoc] using this) (toByte_length _ _) lA lB lR lC s4 (s3.load rfl) (apart_blk (by omega)) (apart_blk (by simp))
    (by simp only [List.length_singleton]; omega)).1
  rw [toNat_toByte, Nat.mod_eq_of_lt (lt_of_lt_of_le (lt_of_lt_of_le hlt (Nat.sub_le _ _)) hfits)] at hs
  obtain ⟨m5, m6, d1, d2, d3⟩ := hs hlt
  have lS := sign_length g hHl A B R C (2 ^ (p.full_height - 1)) [37]
  have d3 : coreSign P p m4 ⟨2, 0⟩ ⟨4, 0⟩ ⟨3, 0⟩ 1 = some (0, p.sig_bytes + 1, m6) := d3
  rw [d3, Option.bind_some]
  dsimp only
  have t1 : Holds m6 ⟨1, 0⟩ (R ++ C) := keep_one (keep_one s1 (store_onlyIn d1) (by omega)) (store_onlyIn d2) (by omega)
  rw [printHashL_of t1 (by rw [List.length_append]; omega), Option.bind_some, printHashL_of (store_holds d2).left lS, Option.bind_some]
  simp only [xmssLine, ← hA, ← hB, ← hC, ← hR]
  cases f <;> simp

theorem wotsFill_of {a b c : Nat} (hab : a ≠ b) (hac : a ≠ c) (hbc : b ≠ c) {n : Nat} : ∀ (k i : Nat) (m : Mem), i + k = n →
    Room m ⟨a, 0⟩ n → Room m ⟨b, 0⟩ n → Room m ⟨c, 0⟩ n →
    Holds m ⟨a, 0⟩ ((List.range i).map fun i => UInt8.ofNat (3 * i)) → Holds m ⟨b, 0⟩ ((List.range i).map fun i => UInt8.ofNat (2 * i)) →
    Holds m ⟨c, 0⟩ ((List.range i).map fun i => UInt8.ofNat i) →
    ∃ m', wotsFill ⟨a, 0⟩ ⟨b, 0⟩ ⟨c, 0⟩ k i m = some m' ∧ Holds m' ⟨a, 0⟩ ((List.range n).map fun i => UInt8.ofNat (3 * i)) ∧
      Holds m' ⟨b, 0⟩ ((List.range n).map fun i => UInt8.ofNat (2 * i)) ∧ Holds m' ⟨c, 0⟩ ((List.range n).map fun i => UInt8.ofNat i) ∧
      (∀ q l, Room m q l → Room m' q l)
  | 0, i, m, hi, _, _, _, h1, h2, h3 => by
    obtain rfl : i = n := by omega
    exact ⟨m, rfl, h1, h2, h3, fun _ _ h => h⟩
  | k + 1, i, m, hi, ra, rb, rc, h1, h2, h3 => by
    obtain ⟨m1, a1, a2, a3⟩ := store_snoc (b := UInt8.ofNat (3 * i)) ra h1 (by simp; omega)
    obtain ⟨m2, b1, b2, b3⟩ := store_snoc (b := UInt8.ofNat (2 * i)) (rb.keep a3) (keep_one h2 a3 (Ne.symm hab)) (by simp; omega)
    obtain ⟨m3, c1, c2, c3⟩ := store_snoc (b := UInt8.ofNat i) ((rc.keep a3).keep b3) (keep_one (keep_one h3 a3 (Ne.symm hac)) b3 (Ne.symm hbc)) (by simp; omega)
    rw [List.length_map, List.length_range] at a1 b1 c1
    obtain ⟨m4, d1, d2, d3, d4, d5⟩ := wotsFill_of hab hac hbc k (i + 1) m3 (by omega) (((ra.keep a3).keep b3).keep c3)
      (((rb.keep a3).keep b3).keep c3) (((rc.keep a3).keep b3).keep c3)
      (by rw [List.range_succ, List.map_append]; exact keep_one (keep_one a2 b3 hab) c3 hac)
      (by rw [List.range_succ, List.map_append]; exact keep_one b2 c3 hbc)
      (by rw [List.range_succ, List.map_append]; exact c2)
    refine ⟨m4, ?_, d2, d3, d4, fun q l h => d5 q l (((h.keep a3).keep b3).keep c3)⟩
    rw [wotsFill]
    simp only [Option.bind_eq_bind]
    rw [a1, Option.bind_some, b1, Option.bind_some, c1, Option.bind_some, d1]

/-- **C89 (test/vectors, WOTS+).**  The function on uninitialised memory prints what it prints in the first model, for every XMSS
parameter set. -/
theorem C89_vectors_wots (e : Registry.Entry) (he : e ∈ Family.xmss.registry) : vectorsWotsL P e.oid = vectorsWots P e.oid := by
  obtain ⟨hp, _⟩ := registry_parse he
  obtain ⟨p, hpe⟩ : ∃ p, p = params16 slowSkBytes (funcOf e.family) e.n e.pad e.h e.d 0 := ⟨_, rfl⟩
  rw [← hpe] at hp
  obtain ⟨g, hskb, _, H, hH⟩ := Family.facts (P := P) hp
  have hHl := Family.hash_length hp hH
  have hn := g.n_pos
  have hlp : 0 < p.wots_len * p.n := Nat.mul_pos g.len_pos g.n_pos
  have hparse : xmssParseOid slowSkBytes e.oid = some p := hp
  have hr : vectorsWots P e.oid = some ("WOTS+ " ++ toString e.oid ++ " " ++
      printHash (Xmss.wotsPkgen H p ((List.range p.n).map fun i => UInt8.ofNat i) ((List.range p.n).map fun i => UInt8.ofNat (2 * i))
        (vectorAddr 500000000)).1.flatten ++ " " ++
      printHash (Xmss.wotsSign H p ((List.range p.n).map fun i => UInt8.ofNat (3 * i)) ((List.range p.n).map fun i => UInt8.ofNat i)
        ((List.range p.n).map fun i => UInt8.ofNat (2 * i)) (Xmss.wotsPkgen H p ((List.range p.n).map fun i => UInt8.ofNat i)
        ((List.range p.n).map fun i => UInt8.ofNat (2 * i)) (vectorAddr 500000000)).2).1.flatten ++ " " ++
      printHash (Xmss.genLeafWots H p ((List.range p.n).map fun i => UInt8.ofNat i) ((List.range p.n).map fun i => UInt8.ofNat (2 * i))
        (Xmss.wotsSign H p ((List.range p.n).map fun i => UInt8.ofNat (3 * i)) ((List.range p.n).map fun i => UInt8.ofNat i)
        ((List.range p.n).map fun i => UInt8.ofNat (2 * i)) (Xmss.wotsPkgen H p ((List.range p.n).map fun i => UInt8.ofNat i)
        ((List.range p.n).map fun i => UInt8.ofNat (2 * i)) (vectorAddr 500000000)).2).2 (vectorAddr 400000000)).1 ++ "\n") := by
    rw [vectorsWots, hparse]
    show (Xmss.coreHash P p.func p.n).bind _ = _
    rw [hH]
    rfl
  rw [hr, vectorsWotsL, hparse]
  generalize vectorAddr 500000000 = X
  generalize vectorAddr 400000000 = Y
  simp (maxSteps := 10000000) only [Option.bind_eq_bind]
  rw [Option.bind_some, g.sig_wots, alloc_nil hn, Option.bind_some]
  dsimp only
  rw [alloc_pos hn, Option.bind_some, alloc_pos hlp, Option.bind_some, alloc_pos hn, Option.bind_some,
    alloc_pos hlp, Option.bind_some, alloc_pos hn, Option.bind_some]
  simp only [List.cons_append, List.nil_append, List.length_cons, List.length_nil, Nat.zero_add, Nat.reduceAdd]
  obtain ⟨m0, hm0⟩ : ∃ m0 : Mem, m0 = [List.replicate p.n none, List.replicate p.n none, List.replicate (p.wots_len * p.n) none,
    List.replicate p.n none, List.replicate (p.wots_len * p.n) none, List.replicate p.n none] := ⟨_, rfl⟩
  rw [← hm0]
  have r0 : Room m0 ⟨0, 0⟩ p.n := room_fresh (by rw [hm0]; rfl) (by simp)
  have r1 : Room m0 ⟨1, 0⟩ p.n := room_fresh (by rw [hm0]; rfl) (by simp)
  have r2 : Room m0 ⟨2, 0⟩ (p.wots_len * p.n) := room_fresh (by rw [hm0]; rfl) (by simp)
  have r3 : Room m0 ⟨3, 0⟩ p.n := room_fresh (by rw [hm0]; rfl) (by simp)
  have r4 : Room m0 ⟨4, 0⟩ (p.wots_len * p.n) := room_fresh (by rw [hm0]; rfl) (by simp)
  have r5 : Room m0 ⟨5, 0⟩ p.n := room_fresh (by rw [hm0]; rfl) (by simp)
  obtain ⟨m1, a1, a2, a3, a4, a5⟩ := wotsFill_of (a := 5) (b := 1) (c := 0) (by omega) (by omega) (by omega) p.n 0 m0 (by omega) r5 r1 r0
    (holds_nil r5) (holds_nil r1) (holds_nil r0)
  rw [a1, Option.bind_some]
  set M := (List.range p.n).map fun i => UInt8.ofNat (3 * i)
  set ps := (List.range p.n).map fun i => UInt8.ofNat (2 * i)
  set ss := (List.range p.n).map fun i => UInt8.ofNat i
  have lM : M.length = p.n := by simp [M]
  have lp : ps.length = p.n := by simp [ps]
  have ls : ss.length = p.n := by simp [ss]
  obtain ⟨m4, d1, d2⟩ := wotsPkgen_of hH hHl g (out := ⟨2, 0⟩) (a5 _ _ r2) (apart_blk (by omega)) (apart_blk (by omega))
    (a4.load ls) (a3.load lp) X
  obtain ⟨w1, w2⟩ := wotsPkgen_lengths (p := p) hHl ss ps X
  have o4 := store_onlyIn d1
  rw [d2, Option.bind_some]
  dsimp only
  obtain ⟨m5, f1, f2⟩ := wotsSign_of hH hHl g (sig := ⟨4, 0⟩) ((a5 _ _ r4).keep o4) (apart_blk (by omega))
    (apart_blk (by omega)) ((keep_one a2 o4 (by omega)).load lM) ((keep_one a4 o4 (by omega)).load ls) ((keep_one a3 o4 (by omega)).load lp)
    (Xmss.wotsPkgen H p ss ps X).2
  have o5 := store_onlyIn f1
  rw [f2, Option.bind_some]
  dsimp only
  obtain ⟨w3, w4⟩ := wotsSign_lengths g hHl M ss ps (Xmss.wotsPkgen H p ss ps X).2
  have pkl : (Xmss.wotsPkgen H p ss ps X).1.flatten.length = p.wots_len * p.n := by rw [flatten_length_of w2, w1]
  have sgl : (Xmss.wotsSign H p M ss ps (Xmss.wotsPkgen H p ss ps X).2).1.flatten.length = p.wots_len * p.n := by
    rw [flatten_length_of w4, w3]
  rw [printHashL_of (keep_one (store_holds d1) o5 (by omega)) pkl, Option.bind_some, printHashL_of (store_holds f1) sgl, Option.bind_some]
  dsimp only
  obtain ⟨e1, m6, e2, e3⟩ := genLeafWots_of hH hHl g (m := m5) (leaf := ⟨3, 0⟩) (skSeed := ⟨0, 0⟩) (pubSeed := ⟨1, 0⟩)
    ((keep_one (keep_one a4 o4 (by omega)) o5 (by omega)).load ls) ((keep_one (keep_one a3 o4 (by omega)) o5 (by omega)).load lp)
    (((a5 _ _ r3).keep o4).keep o5)
    (Xmss.wotsSign H p M ss ps (Xmss.wotsPkgen H p ss ps X).2).2 Y
  rw [e3, Option.bind_some]
  dsimp only
  rw [printHashL_of (store_holds e2) e1, Option.bind_some]

theorem forOids_congr (b b' : Nat → Option String) (last step : Nat) : ∀ (fuel oid : Nat),
    (∀ i < fuel, oid + i * step ≤ last → b (oid + i * step) = b' (oid + i * step)) → forOids b last step fuel oid = forOids b' last step fuel oid
  | 0, _, _ => rfl
  | fuel + 1, oid, h => by
    rw [forOids, forOids]
    by_cases hl : oid ≤ last
    · rw [if_pos hl, if_pos hl]
      have h0 := h 0 (by omega) (by simpa using hl)
      rw [Nat.zero_mul, Nat.add_zero] at h0
      rw [h0, forOids_congr b b' last step fuel (oid + step) fun i hi hle => by
        have := h (i + 1) (by omega) (by rw [Nat.succ_mul]; omega)
        rw [Nat.succ_mul] at this
        rw [show oid + step + i * step = oid + (i * step + step) by omega]
        exact this]
    · rw [if_neg hl, if_neg hl]

/-- **C89 (test/vectors).**  The program on uninitialised memory has no undefined behaviour and prints what it prints in the first model,
whatever the arrays hold there: the 21 lines of C68. -/
theorem C89_vectors (g : Bool → Nat → Garbage) (hg : ∀ mt oid k, Fresh (g mt oid k)) : vectorsMainL P = vectorsMain P g ∧
    ∃ lines : List String, vectorsMainL P = some (String.join lines) ∧ lines.length = 21 ∧
      ∀ i < 7, (∀ e ∈ Registry.xmss, e.oid = 3 * i + 1 → ∀ line, lines[i]? = some line → IsWotsLine P e line) ∧
        (∀ e ∈ Registry.xmssmt, e.oid = 8 * i + 2 → ∀ line, lines[7 + i]? = some line → IsXmssLine P "XMSSMT" e line) ∧
        (∀ e ∈ Registry.xmss, e.oid = 3 * i + 1 → ∀ line, lines[14 + i]? = some line → IsXmssLine P "XMSS" e line) := by
  have hx : ∀ i < 7, ∃ e ∈ Registry.xmss, e.oid = 1 + i * 3 ∧ e.h ≤ 31 := by decide +kernel
  have hm : ∀ i < 7, ∃ e ∈ Registry.xmssmt, e.oid = 2 + i * 8 ∧ e.h ≤ 31 := by decide +kernel
  have same : ∀ (f : Family) (mt : Bool) (e : Registry.Entry), e ∈ f.registry → decide (f = .xmssmt) = mt → e.h ≤ 31 →
      vectorsXmssL P e.oid mt = vectorsXmss P (g mt e.oid) e.oid mt := by
    intro f mt e he hmt h31
    obtain ⟨H, hc, _⟩ := C53_hash_function (P := P) he
    have a := C89_vectors_xmss (P := P) e he h31 rfl hc
    have b := vectorsXmss_closed (P := P) e he h31 (g mt e.oid) (hg mt e.oid) rfl hc
    rw [hmt] at a b
    rw [a, b]
  have heq : vectorsMainL P = vectorsMain P g := by
    rw [vectorsMainL, vectorsMain, forOids_congr (vectorsWotsL P) (vectorsWots P) 0x15 3 100 1 ?_,
      forOids_congr (fun oid => vectorsXmssL P oid true) (fun oid => vectorsXmss P (g true oid) oid true) 56 8 100 2 ?_,
      forOids_congr (fun oid => vectorsXmssL P oid false) (fun oid => vectorsXmss P (g false oid) oid false) 0x15 3 100 1 ?_]
    · intro i _ hi
      obtain ⟨e, he, ho, h31⟩ := hx i (by omega)
      rw [← ho]
      exact same .xmss false e he (by decide) h31
    · intro i _ hi
      obtain ⟨e, he, ho, h31⟩ := hm i (by omega)
      rw [← ho]
      exact same .xmssmt true e he (by decide) h31
    · intro i _ hi
      obtain ⟨e, he, ho, _⟩ := hx i (by omega)
      rw [← ho]
      exact C89_vectors_wots e he
  refine ⟨heq, ?_⟩
  rw [heq]
  exact C68_vectors g hg

/-- There are arrays as the hypothesis wants them. -/
example : ∃ g : Bool → Nat → Garbage, ∀ mt oid k, Fresh (g mt oid k) := ⟨fun _ _ _ n => List.replicate n 0xAA, fun _ _ _ _ => by simp⟩

/-- **C89 (test/speed).**  The benchmark, which is linked with the fast implementation, has undefined behaviour for every known parameter
set, every number of signatures, all random bytes and all readings of the clock: its secret-key array is uninitialised and key
generation reads it. -/
theorem C89_speed (hp : f.parseFast oid = some p) (k : Nat) (rnd : Params → Bytes) (M : Bytes) (l0 l1 : Nat) (t1 t2 : List UInt64) :
    speedL (libFast P f) oid k rnd M l0 l1 t1 t2 = none := by
  have hparse : (libFast P f).parse = f.parseFast := rfl
  have hcall : (libFast P f).keypair = apiKeypairFastL P f := rfl
  obtain ⟨s1, s2, _⟩ := sizes_fast hp
  obtain ⟨a1, a2⟩ := two_bufs (a := oidLen + p.pk_bytes) (b := oidLen + p.sk_bytes) (Nat.add_pos_left (by decide) _)
    (Nat.add_pos_left (by decide) _) s2 s1
  rw [speedL]
  simp only [Option.bind_eq_bind]
  rw [hparse, hp, Option.bind_some, a1, Option.bind_some]
  dsimp only
  rw [a2, Option.bind_some]
  simp only [malloc, List.cons_append, List.nil_append, List.length_cons, List.length_nil, Nat.zero_add, Nat.reduceAdd]
  cases h : store _ _ M with
  | none => rfl
  | some m' =>
    rw [Option.bind_some, hcall, keypair_none hp rnd ((store_other h (by simp)).trans rfl) ((store_other h (by simp)).trans rfl)]
    rfl

/-- As the Makefile builds it: XMSSMT-SHA2_20/2_256 (OID 1), 16 signatures. -/
example (t1 t2 : List UInt64) (seed M : Bytes) : speedL (libFast P .xmssmt) 1 16 (fun _ => seed) M 0 0 t1 t2 = none := by
  obtain ⟨p, hp⟩ : ∃ p, Family.xmssmt.parseFast 1 = some p := ⟨_, rfl⟩
  exact C89_speed hp _ _ _ _ _ _ _

end Xmss.Low
