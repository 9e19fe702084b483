import Verif.Proof.LowApi
/-
The pointer-level model of the simple implementation: `xmssmt_core_sign`.
-/
namespace Xmss.Low

variable {P : Prims} {H : Bytes → Bytes} {p : Params}

theorem w64_wrap {a b : Nat} (h : b ≤ a) (ha : a < 2 ^ 64) : w64 (a + (2 ^ 64 - b)) = a - b := by
  unfold w64
  generalize (2 : Nat) ^ 64 = N at *
  have : a + (N - b) = a - b + N := by omega
  rw [this, Nat.add_mod_right, Nat.mod_eq_of_lt (by omega)]

theorem store_left_some {m X L : Mem} {q : Ptr} {x : Bytes} (h : store m q x = some X) : store (m ++ L) q x = some (X ++ L) := by
  rw [store_left (store_blk h), h]; rfl

/-- A range that is about to be written can be described by its cells. -/
theorem Valid.cells2 {m : Mem} {q : Ptr} {a b : Nat} (h : Valid m q (a + b)) :
    ∃ A B : Block, A.length = a ∧ B.length = b ∧ Low.storeC m q (A ++ B) = some m := by
  obtain ⟨C, h1, h2⟩ := h.storeC
  exact ⟨C.take a, C.drop a, by simp; omega, by simp; omega, by rw [List.take_append_drop]; exact h2⟩

/-- The three outcomes of `xmssmt_core_sign`. -/
theorem coreSign_of (hH : Xmss.coreHash P p.func p.n = some H) (hl : ∀ x, (H x).length = p.n) (g : p.Good)
    (hskb : p.sk_bytes = p.index_bytes + 4 * p.n) {m : Mem} {sk sm msg : Ptr} {ib k f root s M : Bytes}
    (hsk : load m sk (p.index_bytes + 4 * p.n) = some (ib ++ k ++ f ++ root ++ s)) (hib : ib.length = p.index_bytes)
    (h1 : k.length = p.n) (h2 : f.length = p.n) (h3 : root.length = p.n) (h4 : s.length = p.n)
    (hv : Valid m sm (p.sig_bytes + M.length)) (hM : load m msg M.length = some M)
    (d : Disj sk (p.index_bytes + 4 * p.n) sm (p.sig_bytes + M.length)) (dm : Disj msg M.length (sm + p.sig_bytes) M.length)
    (hml : p.sig_bytes + M.length < 2 ^ 64) :
    (Rfc.toNat ib < 2 ^ p.full_height - 1 →
      ∃ mk m', store m sk (Rfc.toByte (Rfc.toNat ib + 1) p.index_bytes) = some mk ∧
        store mk sm ((suiteOf p H).sign k f root s (Rfc.toNat ib) M ++ M) = some m' ∧
        coreSign P p m sk sm msg M.length = some (0, p.sig_bytes + M.length, m')) ∧
    (Rfc.toNat ib = 2 ^ p.full_height - 1 → ∀ z, z = List.replicate p.n (0 : UInt8) →
      ∃ mk m', store m sk (Rfc.toByte (2 ^ p.full_height) p.index_bytes ++ z ++ z ++ z ++ z) = some mk ∧
        store mk sm (List.replicate p.index_bytes 0xFF ++
          ((suiteOf p H).sign z z z z (2 ^ p.full_height - 1) M).drop p.index_bytes ++ M) = some m' ∧
        coreSign P p m sk sm msg M.length = some (0, p.sig_bytes + M.length, m')) ∧
    (2 ^ p.full_height - 1 < Rfc.toNat ib →
      ∃ mk m', store m sk (List.replicate p.index_bytes 0xFF ++ List.replicate (4 * p.n) 0) = some mk ∧
        store mk (sm + p.sig_bytes) M = some m' ∧
        coreSign P p m sk sm msg M.length = some (-2, p.sig_bytes + M.length, m')) := by
  have hfh := g.fh_lt
  have hn := g.n_pos
  have hil := g.idx_le
  have hn16 := (fits_of_good g).n_lt
  have h1632 : (2 : Nat) ^ 16 * 4 + 8 < 2 ^ 64 := by norm_num
  have hpow : 0 < 2 ^ p.full_height := Nat.two_pow_pos _
  obtain ⟨C0, C1, hC0, hC1, hX0⟩ := hv.cells2
  obtain ⟨X, s1, t1⟩ := storeC_mid (A := C0) (B := C1) (C := []) (x := M) (by simpa using hX0) (by omega)
  rw [List.append_nil] at s1
  rw [hC0] at t1
  have hXl : X.length = m.length := store_length t1
  have hCl : (C0 ++ M.map some).length = p.sig_bytes + M.length := by simp; omega
  have lsk : load X sk (p.index_bytes + 4 * p.n) = some (ib ++ k ++ f ++ root ++ s) := by
    rw [load_storeC_disj s1 (by rw [hCl]; exact d)]; exact hsk
  have lib : load X sk p.index_bytes = some ib := by
    have := load_sub (A := []) (B := ib) (C := k ++ f ++ root ++ s) (by simpa [List.append_assoc] using lsk)
    rw [hib] at this; exact this
  have hmsgb := load_blk hM
  -- the common beginning
  set L : Mem := [List.replicate p.n none, List.replicate 32 none] with hL
  have start : coreSign P p m sk sm msg M.length =
      (if 2 ^ p.full_height - 1 ≤ Rfc.toNat ib then
        (store (X ++ L) sk (List.replicate p.index_bytes 0xFF)).bind fun m1 =>
          (store m1 (sk + p.index_bytes) (List.replicate (4 * p.n) 0)).bind fun m1 =>
            if 2 ^ p.full_height - 1 < Rfc.toNat ib then some (-2, p.sig_bytes + M.length, release m m1)
            else (coreSignBody P p m1 ⟨m.length, 0⟩ ⟨m.length + 1, 0⟩ sk sm M.length (Rfc.toNat ib)).bind fun m1 =>
              some (0, p.sig_bytes + M.length, release m m1)
      else (coreSignBody P p (X ++ L) ⟨m.length, 0⟩ ⟨m.length + 1, 0⟩ sk sm M.length (Rfc.toNat ib)).bind fun m1 =>
        some (0, p.sig_bytes + M.length, release m m1)) := by
    rw [coreSign, alloc_pos hn]
    simp only [Option.bind_eq_bind]
    rw [Option.bind_some]
    dsimp only
    rw [alloc_pos (by omega), Option.bind_some]
    dsimp only
    rw [List.append_assoc]
    have hL' : [List.replicate p.n none] ++ [List.replicate 32 none] = L := rfl
    rw [hL', memcpy_eq (x := M) (by rw [load_left hmsgb]; exact hM) dm.symm, store_left_some t1, Option.bind_some,
      bytesToUll_of hil (bs := ib) (by rw [load_left (load_blk lib)]; exact lib), bytesToUll_eq (by rw [hib]; exact hil),
      Option.bind_some, if_neg (by omega), w64_lt hml, hskb, w64_wrap (by omega) (by omega), Nat.add_sub_cancel_left]
    have hlen : (m ++ [List.replicate p.n (none : Cell)]).length = m.length + 1 := by simp
    rw [hlen]
    have hc : (2 ^ p.full_height - 1 < Rfc.toNat ib ∨ p.full_height = 64 ∧ Rfc.toNat ib = 2 ^ p.full_height - 1) ↔
        2 ^ p.full_height - 1 < Rfc.toNat ib := by
      constructor
      · rintro (h | h)
        · exact h
        · omega
      · exact Or.inl
    simp only [hc]
  refine ⟨?_, ?_, ?_⟩
  · intro hlt
    rw [start, if_neg (by omega)]
    obtain ⟨mk, X', r1, i1, e1, e2, f1⟩ := coreSignBody_of hH hl g (r0 := List.replicate p.n none)
      (i0 := List.replicate 32 none) (idx := Rfc.toNat ib) hsk hib h1 h2 h3 h4 s1 hC0 d (by simp) (by simp) (by omega) hml
    rw [f1, Option.bind_some, release_append (by rw [store_length e2, store_length e1])]
    refine ⟨mk, X', e1, ?_, rfl⟩
    rw [← e2]
    congr 2
    have hs : (suiteOf p H).sign k f root s (Rfc.toNat ib) M =
      ((suiteOf p H).sign k f root s (Rfc.toNat ib) M).take p.index_bytes ++
      ((suiteOf p H).sign k f root s (Rfc.toNat ib) M).drop p.index_bytes := (List.take_append_drop _ _).symm
    conv_lhs => rw [hs]
    congr 1
    simp only [Rfc.Suite.sign]
    rw [List.append_assoc, List.take_append_of_le_length (by rw [toByte_length]; exact Nat.le_refl _)]
    have : (suiteOf p H).idxLen = ib.length := hib.symm
    rw [this, toByte_toNat, List.take_of_length_le (by omega)]
  · intro heq z hz
    have hzl : z.length = p.n := by simp [hz]
    have hz4 : List.replicate (4 * p.n) (0 : UInt8) = z ++ z ++ z ++ z := by
      simp only [hz, List.append_assoc, List.replicate_append_replicate]
      congr 1; ring
    set F := List.replicate p.index_bytes (0xFF : UInt8) with hF
    have hFl : F.length = p.index_bytes := by simp [hF]
    have hWl : (F ++ z ++ z ++ z ++ z).length = p.index_bytes + 4 * p.n := by
      simp only [List.length_append, hFl, hzl]; omega
    obtain ⟨mw, hmw⟩ := (valid_of_load hsk).store (x := F ++ z ++ z ++ z ++ z) (by rw [hWl])
    obtain ⟨X', t2, s2⟩ := storeC_store_comm s1 hmw (by rw [hWl, hCl]; exact d)
    have hpart : store X sk F ≠ none := by
      intro hc
      have := store_append_none hc (z ++ z ++ z ++ z)
      simp only [← List.append_assoc] at this
      rw [this] at t2; cases t2
    obtain ⟨X1, hX1⟩ := Option.ne_none_iff_exists'.mp hpart
    have t3 : store X1 (sk + p.index_bytes) (z ++ z ++ z ++ z) = some X' := by
      rw [← hFl, store_append' hX1, ← t2]; simp only [List.append_assoc]
    rw [start, if_pos (by omega), store_left_some hX1, Option.bind_some, hz4, store_left_some t3, Option.bind_some,
      if_neg (by omega)]
    obtain ⟨mk, X2, r1, i1, e1, e2, f1⟩ := coreSignBody_of hH hl g (m := mw) (sk := sk) (ib := F) (k := z) (f := z) (root := z)
      (s := z) (r0 := List.replicate p.n none) (i0 := List.replicate 32 none) (idx := 2 ^ p.full_height - 1)
      (by rw [← hWl]; exact load_store_self hmw) hFl hzl hzl hzl hzl s2 hC0 d (by simp) (by simp) (by omega) hml
    have hmwl : mw.length = m.length := store_length hmw
    rw [hmwl] at f1
    rw [heq, f1, Option.bind_some, release_append (by rw [store_length e2, store_length e1, hmwl])]
    refine ⟨mk, X2, ?_, e2, rfl⟩
    have hp1 : 2 ^ p.full_height - 1 + 1 = 2 ^ p.full_height := by omega
    rw [hp1] at e1
    have := store_mid (A := []) (B := F) (C := z ++ z ++ z ++ z) (B' := Rfc.toByte (2 ^ p.full_height) p.index_bytes)
      (by simpa [List.append_assoc] using hmw) (by rw [toByte_length, hFl])
    have e0 : store mw sk (Rfc.toByte (2 ^ p.full_height) p.index_bytes) = some mk := e1
    have e3 : store mw (sk + List.length ([] : Bytes)) (Rfc.toByte (2 ^ p.full_height) p.index_bytes) =
      store mw sk (Rfc.toByte (2 ^ p.full_height) p.index_bytes) := rfl
    rw [e3, e0] at this
    rw [this]
    congr 1
    simp [List.append_assoc]
  · intro hgt
    set F := List.replicate p.index_bytes (0xFF : UInt8) with hF
    set z := List.replicate (4 * p.n) (0 : UInt8) with hz
    have hFl : F.length = p.index_bytes := by simp [hF]
    have hWl : (F ++ z).length = p.index_bytes + 4 * p.n := by simp [hF, hz]
    obtain ⟨mw, hmw⟩ := (valid_of_load hsk).store (x := F ++ z) (by rw [hWl])
    have hc := store_comm (m := m) (q := sk) (r := sm + p.sig_bytes) (x := F ++ z) (y := M)
      (by rw [hWl]; exact d.sub _ _ (by omega))
    rw [hmw, Option.bind_some, t1, Option.bind_some] at hc
    obtain ⟨X', hX'⟩ := (valid_of_load lsk).store (x := F ++ z) (by rw [hWl])
    have hpart : store X sk F ≠ none := by
      intro hc
      have := store_append_none hc z
      rw [this] at hX'; cases hX'
    obtain ⟨X1, hX1⟩ := Option.ne_none_iff_exists'.mp hpart
    have t3 : store X1 (sk + p.index_bytes) z = some X' := by rw [← hFl, store_append' hX1, hX']
    rw [start, if_pos (by omega), store_left_some hX1, Option.bind_some, store_left_some t3, Option.bind_some,
      if_pos hgt, release_append (by rw [store_length hX', hXl])]
    exact ⟨mw, X', hmw, by rw [hc, hX'], rfl⟩

end Xmss.Low
