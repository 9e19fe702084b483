import Verif.Proof.LowCore
/-
The pointer-level model of the simple implementation: the bodies of `xmssmt_core_sign`, `xmssmt_core_sign_open`,
`xmssmt_core_keypair` and the entry points of xmss.c.
-/
namespace Xmss.Low

variable {P : Prims} {H : Bytes → Bytes} {p : Params}

theorem splice_get {b C : Block} {o : Nat} (h : o + C.length ≤ b.length) (i : Nat) :
    (b.take o ++ C ++ b.drop (o + C.length))[i]? = if i < o then b[i]? else if i < o + C.length then C[i - o]? else b[i]? := by
  have ht : (b.take o).length = o := by simp; omega
  by_cases h1 : i < o
  · rw [if_pos h1, List.append_assoc, List.getElem?_append_left (by omega), List.getElem?_take_of_lt h1]
  · rw [if_neg h1]
    by_cases h2 : i < o + C.length
    · rw [if_pos h2, List.append_assoc, List.getElem?_append_right (by omega), ht, List.getElem?_append_left (by omega)]
    · rw [if_neg h2, List.getElem?_append_right (by simp; omega), List.getElem?_drop]
      congr 1
      simp only [List.length_append, ht]; omega

theorem storeC_comm {m X Y : Mem} {q r : Ptr} {C D : Block} (h1 : storeC m q C = some X) (h2 : storeC m r D = some Y)
    (hd : Disj r D.length q C.length) : ∃ Z, storeC X r D = some Z ∧ storeC Y q C = some Z := by
  unfold storeC at h1 h2 ⊢
  cases hb : m[q.blk]? with
  | none => rw [hb] at h1; cases h1
  | some b =>
    cases hc : m[r.blk]? with
    | none => rw [hc] at h2; cases h2
    | some c =>
      rw [hb] at h1; rw [hc] at h2
      dsimp only at h1 h2
      split at h1
      · rename_i hq
        split at h2
        · rename_i hr
          have h1 := (Option.some.inj h1).symm
          have h2 := (Option.some.inj h2).symm
          have hql : q.blk < m.length := (List.getElem?_eq_some_iff.mp hb).1
          have hrl : r.blk < m.length := (List.getElem?_eq_some_iff.mp hc).1
          by_cases he : q.blk = r.blk
          · rw [he] at hb
            rw [hb] at hc
            have hbc := Option.some.inj hc
            subst hbc
            have hXl : (b.take q.off ++ C ++ b.drop (q.off + C.length)).length = b.length := by simp; omega
            have hYl : (b.take r.off ++ D ++ b.drop (r.off + D.length)).length = b.length := by simp; omega
            refine ⟨m.set r.blk ((b.take q.off ++ C ++ b.drop (q.off + C.length)).take r.off ++ D ++
              (b.take q.off ++ C ++ b.drop (q.off + C.length)).drop (r.off + D.length)), ?_, ?_⟩
            · rw [h1, he, List.getElem?_set_self hrl]
              dsimp only
              rw [if_pos (by rw [hXl]; exact hr), List.set_set]
            · rw [h2, he, List.getElem?_set_self hrl]
              dsimp only
              rw [if_pos (by rw [hYl]; exact hq), List.set_set]
              congr 2
              apply List.ext_getElem?
              intro i
              rw [splice_get (b := b.take r.off ++ D ++ b.drop (r.off + D.length)) (by rw [hYl]; exact hq), splice_get hr,
                splice_get (by rw [hXl]; exact hr), splice_get hq]
              rcases hd with hd | hd | hd
              · exact absurd he.symm hd
              · repeat' split
                all_goals first | rfl | omega
              · repeat' split
                all_goals first | rfl | omega
          · refine ⟨(m.set q.blk (b.take q.off ++ C ++ b.drop (q.off + C.length))).set r.blk
              (c.take r.off ++ D ++ c.drop (r.off + D.length)), ?_, ?_⟩
            · rw [h1, List.getElem?_set_ne he, hc]
              dsimp only
              rw [if_pos hr]
            · rw [h2, List.getElem?_set_ne (Ne.symm he), hb]
              dsimp only
              rw [if_pos hq, List.set_comm _ _ (Ne.symm he)]
        · cases h2
      · cases h1

theorem storeC_store_comm {m X Y : Mem} {q r : Ptr} {C : Block} {y : Bytes} (h1 : storeC m q C = some X)
    (h2 : store m r y = some Y) (hd : Disj r y.length q C.length) : ∃ Z, store X r y = some Z ∧ storeC Y q C = some Z := by
  rw [← storeC_map] at h2 ⊢
  exact storeC_comm h1 h2 (by simpa using hd)

theorem split4 (l : Block) (i j k : Nat) :
    l = l.take i ++ (l.drop i).take j ++ (l.drop (i + j)).take k ++ l.drop (i + j + k) := by
  conv_lhs => rw [← List.take_append_drop (i + j + k) l, List.take_add, List.take_add]

theorem valid_of_storeC {m X : Mem} {q : Ptr} {C : Block} (h : storeC m q C = some X) : Valid X q C.length := by
  obtain ⟨U, Y, V, h1, h2, h3, rfl⟩ := storeC_eq_some.mp h
  have hlt := (List.getElem?_eq_some_iff.mp h1).1
  exact ⟨U ++ C ++ V, List.getElem?_set_self hlt, by simp; omega⟩

theorem load_storeC {m X : Mem} {q : Ptr} {A C : Block} {x : Bytes} (h : storeC m q (A ++ x.map some ++ C) = some X) :
    load X (q + A.length) x.length = some x := by
  obtain ⟨X', h1, h2⟩ := storeC_mid (x := x) h (by simp)
  rw [h] at h1
  have := Option.some.inj h1
  subst this
  exact load_store_self h2

theorem ptr_sub {q : Ptr} {a b : Nat} (h : b ≤ a) : (q + a).sub b = some (q + (a - b)) := by
  have h1 : b ≤ (q + a).off := by show b ≤ q.off + a; omega
  rw [Ptr.sub, if_pos h1]
  have h2 : (q + a).off - b = q.off + (a - b) := by show q.off + a - b = _; omega
  rw [h2]; rfl

theorem two0 {m : Mem} {b b' c : Block} {o : Nat} {x : Bytes} (h : b.write o x = some b') :
    store (m ++ [b, c]) ⟨m.length, o⟩ x = some (m ++ [b', c]) := by
  rw [store_right0]
  have : store [b, c] ⟨0, o⟩ x = some [b', c] := store_eq_some.mpr ⟨b, b', rfl, h, rfl⟩
  rw [this]; rfl

theorem two1 {m : Mem} {b c c' : Block} {o : Nat} {x : Bytes} (h : c.write o x = some c') :
    store (m ++ [b, c]) ⟨m.length + 1, o⟩ x = some (m ++ [b, c']) := by
  rw [store_right]
  have : store [b, c] ⟨1, o⟩ x = some [b, c'] := store_eq_some.mpr ⟨c, c', rfl, h, rfl⟩
  rw [this]; rfl

theorem ldtwo0 {m : Mem} {b c : Block} {o len : Nat} : load (m ++ [b, c]) ⟨m.length, o⟩ len = b.read o len := load_right0
theorem ldtwo1 {m : Mem} {b c : Block} {o len : Nat} : load (m ++ [b, c]) ⟨m.length + 1, o⟩ len = c.read o len := load_right

set_option maxHeartbeats 1600000 in
/-- `xmssmt_core_sign` after the exhaustion check: `m` is the caller's memory without the effects on `sm`; the signature
area may be uninitialised. -/
theorem coreSignBody_of (hH : Xmss.coreHash P p.func p.n = some H) (hl : ∀ x, (H x).length = p.n) (g : p.Good)
    {m X : Mem} {sk sm : Ptr} {ib k f root s M : Bytes} {C0 r0 i0 : Block} {idx : Nat}
    (hsk : load m sk (p.index_bytes + 4 * p.n) = some (ib ++ k ++ f ++ root ++ s)) (hib : ib.length = p.index_bytes)
    (h1 : k.length = p.n) (h2 : f.length = p.n) (h3 : root.length = p.n) (h4 : s.length = p.n)
    (hX : storeC m sm (C0 ++ M.map some) = some X) (hC0 : C0.length = p.sig_bytes)
    (d : Disj sk (p.index_bytes + 4 * p.n) sm (p.sig_bytes + M.length)) (hr0 : r0.length = p.n) (hi0 : i0.length = 32)
    (hidx : idx < 2 ^ p.full_height) (hml : p.sig_bytes + M.length < 2 ^ 64) :
    ∃ mk X' r1 i1, store m sk (Rfc.toByte (idx + 1) p.index_bytes) = some mk ∧
      store mk sm (ib ++ ((suiteOf p H).sign k f root s idx M).drop p.index_bytes ++ M) = some X' ∧
      coreSignBody P p (X ++ [r0, i0]) ⟨m.length, 0⟩ ⟨m.length + 1, 0⟩ sk sm M.length idx = some (X' ++ [r1, i1]) := by
  have hfit := g.prefix_fits
  have hsig := g.sig_eq'
  have fits := fits_of_good g
  have hn16 := fits.n_lt
  have hpad := g.pad_le
  have hil := g.idx_le
  have hi64 : idx < 2 ^ 63 := lt_of_lt_of_le hidx (Nat.pow_le_pow_right (by omega) (by have := g.fh_lt; omega))
  have h6364 : (2 : Nat) ^ 63 + 2 ^ 63 = 2 ^ 64 := by norm_num
  have h1632 : (2 : Nat) ^ 16 * 4 < 2 ^ 31 := by norm_num
  have h3132 : (2 : Nat) ^ 31 < 2 ^ 32 := by norm_num
  have hskb := load_blk hsk
  have hXl : X.length = m.length := storeC_length hX
  obtain ⟨_, _, _, hsm0, _, _, _⟩ := storeC_eq_some.mp hX
  have hsmb : sm.blk < m.length := (List.getElem?_eq_some_iff.mp hsm0).1
  clear hsm0
  -- split the signature area
  obtain ⟨a, b, c, e, rfl, ha, hb, hc, he⟩ : ∃ a b c e : Block, C0 = a ++ b ++ c ++ e ∧ a.length = p.index_bytes ∧
      b.length = p.n ∧ c.length = p.sig_bytes - (p.index_bytes + p.n) - (p.padding_len + 3 * p.n) ∧
      e.length = p.padding_len + 3 * p.n := by
    refine ⟨C0.take p.index_bytes, (C0.drop p.index_bytes).take p.n,
      (C0.drop (p.index_bytes + p.n)).take (p.sig_bytes - (p.index_bytes + p.n) - (p.padding_len + 3 * p.n)),
      C0.drop (p.index_bytes + p.n + (p.sig_bytes - (p.index_bytes + p.n) - (p.padding_len + 3 * p.n))),
      ?_, ?_, ?_, ?_, ?_⟩
    · exact split4 _ _ _ _
    all_goals simp; omega
  -- the key without the index
  have hrest : load m (sk + p.index_bytes) (4 * p.n) = some (k ++ f ++ root ++ s) := by
    have := load_sub (A := ib) (B := k ++ f ++ root ++ s) (C := []) (by simpa [List.append_assoc] using hsk)
    rw [hib] at this
    rw [← this]; congr 1; simp [*]; omega
  have hibl : load m sk p.index_bytes = some ib := by
    have := load_sub (A := []) (B := ib) (C := k ++ f ++ root ++ s) (by simpa [List.append_assoc] using hsk)
    rw [hib] at this; exact this
  rw [coreSignBody]
  simp only [Option.bind_eq_bind]
  rw [w32_lt (x := 3 * p.n) (by omega), w32_lt (x := 2 * p.n) (by omega), w32_lt (x := p.index_bytes + p.n) (by omega),
    w64_lt (x := idx + 1) (by omega)]
  -- copy the index
  have hCl : (a ++ b ++ c ++ e ++ M.map some).length = p.sig_bytes + M.length := by
    simp only [List.length_append, List.length_map] at hC0 ⊢; omega
  have l1 : load (X ++ [r0, i0]) sk p.index_bytes = some ib := by
    rw [load_left (by omega), load_storeC_disj hX (by rw [hCl]; exact d.mono (by omega) (Nat.le_refl _))]; exact hibl
  rw [memcpy_eq l1 ((d.mono (by omega) (by omega)).symm), store_left (by omega)]
  obtain ⟨X1, s1, t1⟩ := storeC_mid (A := []) (B := a) (C := b ++ c ++ e ++ M.map some) (x := ib)
    (by simpa [List.append_assoc] using hX) (by omega)
  have t1 : store X sm ib = some X1 := t1
  rw [t1, Option.map_some, Option.bind_some]
  -- advance the index in the key
  have hX1l : X1.length = m.length := storeC_length s1
  have vX1 : Valid (X1 ++ [r0, i0]) sk p.index_bytes := by
    have := (valid_of_load l1)
    rw [← List.append_nil (X ++ [r0, i0])] at this
    have h := this.after (m' := X1 ++ [r0, i0] ++ []) (r := sm) (x := ib)
      (by rw [List.append_nil, List.append_nil, store_left (by omega), t1]; rfl)
    rwa [List.append_nil] at h
  rw [ullToBytes_of (Or.inr vX1.store_nil) (by omega) (by omega), store_left (by omega), ullToBytes_eq]
  set I := Rfc.toByte (idx + 1) p.index_bytes with hI
  have hIl : I.length = p.index_bytes := toByte_length _ _
  obtain ⟨mk, hmk⟩ := (valid_of_load hibl).store (x := I) (by omega)
  obtain ⟨X2, t2, s2⟩ := storeC_store_comm s1 hmk (by
    rw [hIl]
    refine d.mono (by omega) ?_
    simp only [List.nil_append, List.length_append, List.length_map] at hC0 ⊢; omega)
  rw [t2, Option.map_some, Option.bind_some]
  have hmkl : mk.length = m.length := store_length hmk
  have hX2l : X2.length = m.length := by rw [storeC_length s2, hmkl]
  have hrest2 : load mk (sk + p.index_bytes) (4 * p.n) = some (k ++ f ++ root ++ s) := by
    rw [load_store_disj hmk (Or.inr (Or.inr (by rw [hIl]; exact Nat.le_refl _)))]; exact hrest
  have lk : load mk (sk + p.index_bytes) p.n = some k := by
    have := load_sub (A := []) (B := k) (C := f ++ root ++ s) (by simpa [List.append_assoc] using hrest2)
    rwa [h1] at this
  have lf : load mk (sk + p.index_bytes + p.n) p.n = some f := by
    have := load_sub (A := k) (B := f) (C := root ++ s) (by simpa [List.append_assoc] using hrest2)
    rwa [h1, h2] at this
  have lr : load mk (sk + p.index_bytes + 2 * p.n) p.n = some root := by
    have := load_sub (A := k ++ f) (B := root) (C := s) (by simpa [List.append_assoc] using hrest2)
    rwa [List.length_append, h1, h2, h3, ← two_mul] at this
  have ls : load mk (sk + p.index_bytes + 3 * p.n) p.n = some s := by
    have := load_sub (A := k ++ f ++ root) (B := s) (C := []) (by simpa [List.append_assoc] using hrest2)
    rw [List.length_append, List.length_append, h1, h2, h3, h4] at this
    rw [← this]; congr 2; omega
  have hibm : (ib.map some).length = p.index_bytes := by rw [List.length_map, hib]
  have dsk : ∀ o, o + p.n ≤ p.index_bytes + 4 * p.n → Disj (sk + o) p.n sm (p.sig_bytes + M.length) :=
    fun o ho => d.sub_left o p.n ho
  -- the index as a 32-byte string
  rw [ullToBytes_of (Or.inl (by omega)) (by omega) (by omega), ullToBytes_eq]
  set Y := Rfc.toByte idx 32 with hY
  have hYl : Y.length = 32 := toByte_length _ _
  have t3 : store (X2 ++ [r0, i0]) ⟨m.length + 1, 0⟩ Y = some (X2 ++ [r0, Y.map some]) := by
    rw [← hX2l]; exact two1 (write_full (by rw [hYl, hi0]))
  rw [t3, Option.bind_some]
  -- the randomness
  have c2 : ([] ++ ib.map some ++ (b ++ c ++ e ++ M.map some)).length = p.sig_bytes + M.length := by
    simp only [List.nil_append, List.length_append, List.length_map] at hC0 ⊢; omega
  rw [prf_of hH fits (m := X2 ++ [r0, Y.map some]) (x := Y) (k := f)
    (by rw [← hX2l, ldtwo1]; exact read_full hYl)
    (by rw [load_left (by show sk.blk < _; omega), load_storeC_disj s2 (by rw [c2, add_add]; exact dsk _ (by omega))]; exact lf)
    (by show sm.blk < _; rw [List.length_append]; omega), store_left (by show sm.blk < _; omega), prf_eq]
  set R := (suiteOf p H).PRF f Y with hR
  have hRl : R.length = p.n := hl _
  obtain ⟨X3, s3, t4⟩ := storeC_mid (A := ib.map some) (B := b) (C := c ++ e ++ M.map some) (x := R)
    (by simpa [List.append_assoc] using s2) (by omega)
  rw [hibm] at t4
  rw [t4, Option.map_some, Option.bind_some]
  have hX3l : X3.length = m.length := by rw [storeC_length s3, hmkl]
  have c3 : (ib.map some ++ R.map some ++ (c ++ e ++ M.map some)).length = p.sig_bytes + M.length := by
    simp only [List.length_append, List.length_map] at hC0 ⊢; omega
  -- the message digest
  rw [ptr_sub (by omega), Option.bind_some, ptr_sub (by omega), Option.bind_some]
  set off := p.sig_bytes - p.padding_len - 3 * p.n with hoff
  have hRm : (R.map some).length = p.n := by rw [List.length_map, hRl]
  have hMm : (M.map some).length = M.length := by rw [List.length_map]
  have lm : load X3 (sm + off + (p.padding_len + 3 * p.n)) M.length = some M := by
    have := load_storeC (A := ib.map some ++ R.map some ++ c ++ e) (x := M) (C := []) (by simpa [List.append_assoc] using s3)
    rw [← this, add_add]; congr 2
    simp only [List.length_append]; omega
  have v3 := valid_of_storeC s3
  rw [c3] at v3
  have vmp : Valid (X3 ++ [r0, Y.map some]) (sm + off) (p.padding_len + 3 * p.n) := (v3.sub _ _ (by omega)).left
  rw [hashMessage_of hH fits (m := X3 ++ [r0, Y.map some]) (r := R) (t := root) (msg := M) vmp.store_nil
    (by rw [load_left (by show sm.blk < _; omega)]; have := load_store_self t4; rwa [hRl] at this)
    (by rw [load_left (by show sk.blk < _; omega), load_storeC_disj s3 (by rw [c3, add_add]; exact dsk _ (by omega))]; exact lr)
    (by rw [load_left (by show sm.blk < _; omega)]; exact lm)
    (Or.inr (Or.inl (by show sm.off + p.index_bytes + p.n ≤ sm.off + off; omega)))
    (by rw [add_add]; exact (dsk _ (by omega)).sub _ _ (by omega)) (by omega) (by omega) (by simp [hX3l])]
  set D := Xmss.ullToBytes p.padding_len padHash ++ R ++ root ++ Xmss.ullToBytes p.n idx with hD
  have hDl : D.length = p.padding_len + 3 * p.n := by
    rw [hD]; simp only [List.length_append, ullToBytes_length, hRl, h3]; omega
  obtain ⟨X4, s4, t5⟩ := storeC_mid (A := ib.map some ++ R.map some ++ c) (B := e) (C := M.map some) (x := D)
    (by simpa [List.append_assoc] using s3) (by omega)
  have hAl : (ib.map some ++ R.map some ++ c).length = off := by simp only [List.length_append]; omega
  rw [hAl] at t5
  have hX4l : X4.length = m.length := by rw [storeC_length s4, hmkl]
  rw [store_left (by show sm.blk < _; omega), t5, Option.map_some, Option.bind_some]
  have hdig : H (D ++ M) = (suiteOf p H).digest R root idx M := by
    rw [hD, ullToBytes_eq, ullToBytes_eq]
    simp only [Rfc.Suite.digest, Rfc.Suite.Hmsg, suiteOf, List.append_assoc]; rfl
  rw [hdig]
  set dg := (suiteOf p H).digest R root idx M with hdg
  have hdgl : dg.length = p.n := hl _
  have t6 : store (X4 ++ [r0, Y.map some]) ⟨m.length, 0⟩ dg = some (X4 ++ [dg.map some, Y.map some]) := by
    rw [← hX4l]; exact two0 (write_full (by rw [hdgl, hr0]))
  rw [t6, Option.bind_some]
  -- the layers
  have c4 : (ib.map some ++ R.map some ++ c ++ D.map some ++ M.map some).length = p.sig_bytes + M.length := by
    simp only [List.length_append, List.length_map] at hAl ⊢; omega
  have v4 := valid_of_storeC s4
  rw [c4] at v4
  obtain ⟨m1, m2, M', hM'l, e1, e2, f1⟩ := signLayers_of hH hl g (root := ⟨m.length, 0⟩) (skSeed := sk + p.index_bytes)
    (pubSeed := sk + p.index_bytes + 3 * p.n) (k := k) (s := s) (Disj.of_blk (by show sk.blk ≠ m.length; omega))
    (Disj.of_blk (by show sk.blk ≠ m.length; omega)) p.d 0 idx (setType Addr.zero typeOts) (sm + (p.index_bytes + p.n))
    (X4 ++ [dg.map some, Y.map some]) dg rfl
    (by rw [load_left (by show sk.blk < _; omega), load_storeC_disj s4 (by rw [c4]; exact dsk _ (by omega))]; exact lk)
    (by rw [load_left (by show sk.blk < _; omega), load_storeC_disj s4 (by rw [c4, add_add]; exact dsk _ (by omega))]; exact ls)
    (by rw [← hX4l, ldtwo0]; exact read_full hdgl)
    ((v4.sub _ _ (by omega)).left) ((dsk _ (by omega)).sub _ _ (by omega))
    (by rw [add_add]; exact (dsk _ (by omega)).sub _ _ (by omega)) (Disj.of_blk (by show m.length ≠ sm.blk; omega))
  rw [f1]
  set SL := (suiteOf p H).signLayers k s p.d 0 idx dg with hSL
  have hSLl : SL.length = p.d * ((p.wots_len + p.tree_height) * p.n) := signLayers_spec_length g hl _ _ _ _ _ _
  obtain ⟨X5, s5, t7⟩ := storeC_mid (A := ib.map some ++ R.map some) (B := c ++ D.map some) (C := M.map some) (x := SL)
    (by simpa [List.append_assoc] using s4) (by rw [List.length_append, List.length_map]; omega)
  have hA2 : (ib.map some ++ R.map some).length = p.index_bytes + p.n := by rw [List.length_append]; omega
  rw [hA2] at t7
  rw [store_left (by show sm.blk < _; omega), t7, Option.map_some] at e1
  have hX5l : X5.length = m.length := by rw [storeC_length s5, hmkl]
  have e1 := (Option.some.inj e1).symm
  rw [e1, ← hX5l, two0 (write_full (by rw [hM'l, List.length_map, hdgl]))] at e2
  have e2 := (Option.some.inj e2).symm
  refine ⟨mk, X5, _, _, hmk, ?_, by rw [e2]⟩
  rw [← s5, ← storeC_map]
  congr 1
  simp only [Rfc.Suite.sign]
  rw [List.append_assoc (Rfc.toByte idx _), List.drop_append_of_le_length
    (by rw [toByte_length]; exact Nat.le_refl _), List.drop_of_length_le (by rw [toByte_length]; exact Nat.le_refl _)]
  simp only [List.nil_append, List.append_assoc, List.map_append]
  rfl

end Xmss.Low
