import Verif.Proof.LowSign
/-
The pointer-level model of the simple implementation: `xmssmt_core_sign_open`.
-/
namespace Xmss.Low

variable {P : Prims} {H : Bytes → Bytes} {p : Params}

set_option maxHeartbeats 1600000 in
/-- `xmssmt_core_sign_open` on a signed message that is long enough.  The message buffer may be uninitialised; `J` are its
bytes behind the message: what is left of the prefix that was hashed in front of the message, and of the message. -/
theorem coreSignOpen_of (hH : Xmss.coreHash P p.func p.n = some H) (hl : ∀ x, (H x).length = p.n) (g : p.Good)
    {m : Mem} {mbuf sm pk : Ptr} {root s sig M : Bytes}
    (hpk : load m pk (2 * p.n) = some (root ++ s)) (hr : root.length = p.n) (hs : s.length = p.n)
    (hsm : load m sm (p.sig_bytes + M.length) = some (sig ++ M)) (hsl : sig.length = p.sig_bytes)
    {C0 C1 : Block} (hC0 : C0.length = p.sig_bytes) (hC1 : C1.length = M.length) (hX0 : storeC m mbuf (C0 ++ C1) = some m)
    (d1 : Disj sm (p.sig_bytes + M.length) mbuf (p.sig_bytes + M.length))
    (d2 : Disj pk (2 * p.n) mbuf (p.sig_bytes + M.length)) (hml : p.sig_bytes + M.length < 2 ^ 64) :
    ∃ (J : Block) (X : Mem), J.length = p.sig_bytes ∧
      J = (C0.take (p.sig_bytes - p.padding_len - 3 * p.n) ++ (Rfc.toByte 2 p.padding_len ++ (sig.drop p.index_bytes).take p.n ++
        root ++ Rfc.toByte (Rfc.toNat (sig.take p.index_bytes)) p.n ++ M).map some).drop M.length ∧
      storeC m mbuf ((if (suiteOf p H).verifyRoot root s M sig = root then M else List.replicate M.length 0).map some ++ J) =
        some X ∧
      coreSignOpen P p m mbuf sm (p.sig_bytes + M.length) pk =
        some (if (suiteOf p H).verifyRoot root s M sig = root then (0, M.length, X) else (-1, 0, X)) := by
  have hfit := g.prefix_fits
  have hsig := g.sig_eq'
  have fits := fits_of_good g
  have hn := g.n_pos
  have hn16 := fits.n_lt
  have hpad := g.pad_le
  have hil := g.idx_le
  have hslt := g.sig_lt
  have hlenpos := g.len_pos
  have h1632 : (2 : Nat) ^ 16 * 4 < 2 ^ 31 := by norm_num
  have h3132 : (2 : Nat) ^ 31 < 2 ^ 32 := by norm_num
  have h3264 : (2 : Nat) ^ 32 < 2 ^ 64 := by norm_num
  have hpkb := load_blk hpk
  have hsmb := load_blk hsm
  have hv := valid_of_storeC hX0
  rw [List.length_append, hC0, hC1] at hv
  have hmbb := hv.blk
  -- the signature
  obtain ⟨ib, R, body, rfl, hib, hR, hbody⟩ : ∃ ib R body : Bytes, sig = ib ++ R ++ body ∧ ib.length = p.index_bytes ∧
      R.length = p.n ∧ body.length = p.d * ((p.wots_len + p.tree_height) * p.n) := by
    refine ⟨_, _, _, split3 sig p.index_bytes p.n, ?_, ?_, ?_⟩ <;> simp <;> omega
  have q1 : load m sm p.index_bytes = some ib := by
    have := load_sub (A := []) (B := ib) (C := R ++ body ++ M) (by simpa [List.append_assoc] using hsm)
    rw [hib] at this; exact this
  have q2 : load m (sm + p.index_bytes) p.n = some R := by
    have := load_sub (A := ib) (B := R) (C := body ++ M) (by simpa [List.append_assoc] using hsm)
    rwa [hib, hR] at this
  have q3 : load m (sm + (p.index_bytes + p.n)) (p.d * ((p.wots_len + p.tree_height) * p.n)) = some body := by
    have := load_sub (A := ib ++ R) (B := body) (C := M) hsm
    rwa [List.length_append, hib, hR, hbody] at this
  have q4 : load m (sm + p.sig_bytes) M.length = some M := by
    have := load_sub (A := ib ++ R ++ body) (B := M) (C := []) (by simpa using hsm)
    rwa [hsl] at this
  have q5 : load m pk p.n = some root := by
    have := load_sub (A := []) (B := root) (C := s) (by simpa using hpk)
    rw [hr] at this; exact this
  have q6 : load m (pk + p.n) p.n = some s := by
    have := load_sub (A := root) (B := s) (C := []) (by simpa using hpk)
    rwa [hr, hs] at this
  -- the message buffer
  set off := p.sig_bytes - p.padding_len - 3 * p.n with hoff
  obtain ⟨a, b, rfl, ha, hb⟩ : ∃ a b : Block, C0 = a ++ b ∧ a.length = off ∧ b.length = p.padding_len + 3 * p.n :=
    ⟨C0.take off, C0.drop off, (List.take_append_drop _ _).symm, by simp; omega, by simp; omega⟩
  obtain ⟨X, s1, t1⟩ := storeC_mid (A := a ++ b) (B := C1) (C := []) (x := M) (by simpa using hX0) (by omega)
  rw [List.append_nil] at s1
  rw [hC0] at t1
  have hXl : X.length = m.length := store_length t1
  have c1 : (a ++ b ++ M.map some).length = p.sig_bytes + M.length := by
    rw [List.length_append, List.length_map]; omega
  rw [coreSignOpen, g.sig_wots]
  simp only [Option.bind_eq_bind]
  rw [alloc_pos (Nat.mul_pos hlenpos hn), Option.bind_some]
  dsimp only
  rw [alloc_pos hn, Option.bind_some]
  dsimp only
  rw [alloc_pos hn, Option.bind_some]
  dsimp only
  set bW : Block := List.replicate (p.wots_len * p.n) none with hbW
  set bL : Block := List.replicate p.n none with hbL
  have hbWl : bW.length = p.wots_len * p.n := by simp [hbW]
  have hbLl : bL.length = p.n := by simp [hbL]
  have em : m ++ [bW] ++ [bL] ++ [bL] = m ++ [bW, bL, bL] := by simp
  have el1 : (m ++ [bW]).length = m.length + 1 := by simp
  have el2 : (m ++ [bW] ++ [bL]).length = m.length + 2 := by simp
  rw [em, el1, el2, Nat.mod_eq_of_lt (a := p.sig_bytes) (b := 2 ^ 64) (by omega), w64_wrap (by omega) hml,
    Nat.add_sub_cancel_left, bytesToUll_of hil (bs := ib) (by rw [load_left hsmb]; exact q1),
    bytesToUll_eq (by rw [hib]; exact hil), Option.bind_some]
  have hidx : Rfc.toNat ib < 2 ^ 64 := by
    have h1 := toNat_lt ib
    have h2 : 256 ^ ib.length ≤ 256 ^ 8 := Nat.pow_le_pow_right (by omega) (by omega)
    have h3 : (256 : Nat) ^ 8 = 2 ^ 64 := by norm_num
    omega
  set idx := Rfc.toNat ib with hidxd
  rw [memcpy_eq (x := M) (by rw [load_left (by exact hsmb)]; exact q4)
    ((d1.sub_left p.sig_bytes M.length (by omega)).sub p.sig_bytes M.length (by omega)).symm, store_left_some t1,
    Option.bind_some, ptr_sub (by omega), Option.bind_some, w32_lt (x := 3 * p.n) (by omega), ptr_sub (by omega),
    Option.bind_some, w32_lt (x := p.index_bytes + p.n) (by omega)]
  have v1 := valid_of_storeC s1
  rw [c1] at v1
  have dsm : ∀ o len, o + len ≤ p.sig_bytes + M.length → Disj (sm + o) len mbuf (p.sig_bytes + M.length) :=
    fun o len h => d1.sub_left o len h
  have lm : load X (mbuf + off + (p.padding_len + 3 * p.n)) M.length = some M := by
    have := load_store_self t1
    rw [← this, add_add]; congr 2; omega
  have vmp : Valid (X ++ [bW, bL, bL]) (mbuf + off) (p.padding_len + 3 * p.n) := (v1.sub _ _ (by omega)).left
  rw [hashMessage_of hH fits (m := X ++ [bW, bL, bL]) (r := R) (t := root) (msg := M) vmp.store_nil
    (by rw [load_left (by show sm.blk < _; omega), load_storeC_disj s1 (by rw [c1]; exact dsm _ _ (by omega))]; exact q2)
    (by rw [load_left (by omega), load_storeC_disj s1 (by rw [c1]; exact d2.mono (by omega) (Nat.le_refl _))]; exact q5)
    (by rw [load_left (by show mbuf.blk < _; omega)]; exact lm)
    ((dsm _ _ (by omega)).sub _ _ (by omega)) ((d2.mono (by omega) (Nat.le_refl _)).sub _ _ (by omega)) hidx (by omega) (by simp; omega)]
  set D := Xmss.ullToBytes p.padding_len padHash ++ R ++ root ++ Xmss.ullToBytes p.n idx with hD
  have hDl : D.length = p.padding_len + 3 * p.n := by
    rw [hD]; simp only [List.length_append, ullToBytes_length, hR, hr]; omega
  obtain ⟨X2, s2, t2⟩ := storeC_mid (A := a) (B := b) (C := M.map some) (x := D) s1 (by omega)
  rw [ha] at t2
  have hX2l : X2.length = m.length := by rw [storeC_length s2]
  rw [store_left_some t2, Option.bind_some]
  have hdig : H (D ++ M) = (suiteOf p H).digest R root idx M := by
    rw [hD, ullToBytes_eq, ullToBytes_eq]
    simp only [Rfc.Suite.digest, Rfc.Suite.Hmsg, suiteOf, List.append_assoc]; rfl
  rw [hdig]
  set dg := (suiteOf p H).digest R root idx M with hdg
  have hdgl : dg.length = p.n := hl _
  have t3 : store (X2 ++ [bW, bL, bL]) ⟨m.length + 2, 0⟩ dg = some (X2 ++ [bW, bL, dg.map some]) := by
    rw [← hX2l]; exact st2 (write_full (by rw [hdgl, hbLl]))
  rw [t3, Option.bind_some]
  have c2 : (a ++ D.map some ++ M.map some).length = p.sig_bytes + M.length := by
    simp only [List.length_append, List.length_map]; omega
  obtain ⟨bW', bL', w1, w2, w3, w4⟩ := openLayers_of hH hl g (m := X2) (pubSeed := pk + p.n) (s := s)
    (by rw [load_storeC_disj s2 (by rw [c2]; exact d2.sub_left _ _ (by omega))]; exact q6) p.d 0 idx
    (setType Addr.zero typeOts) (setType Addr.zero typeLtree) (setType Addr.zero typeHashtree) (sm + (p.index_bytes + p.n))
    bW bL dg body rfl rfl rfl rfl hdgl hbWl hbLl
    (by rw [load_storeC_disj s2 (by rw [c2]; exact dsm _ _ (by omega))]; exact q3)
  rw [hX2l] at w4
  rw [w4, Option.bind_some]
  dsimp only
  have hvr : (suiteOf p H).verifyRoot root s M (ib ++ R ++ body) = (suiteOf p H).verifyLayers s p.d 0 idx dg body := by
    have hil' : (suiteOf p H).idxLen = ib.length := hib.symm
    have hnl : (suiteOf p H).n = R.length := hR.symm
    rw [Rfc.Suite.verifyRoot, hil', hnl]
    simp only [List.append_assoc]
    rw [List.take_left, List.drop_left, List.take_left, ← List.append_assoc, ← List.length_append, List.drop_left]
    rfl
  rw [hvr]
  set V := (suiteOf p H).verifyLayers s p.d 0 idx dg body with hV
  have l1 : load (X2 ++ [bW', bL', V.map some]) ⟨m.length + 2, 0⟩ p.n = some V := by
    rw [← hX2l, ld2]; exact read_full w3
  have l2 : load (X2 ++ [bW', bL', V.map some]) pk p.n = some root := by
    rw [load_left (by omega), load_storeC_disj s2 (by rw [c2]; exact d2.mono (by omega) (Nat.le_refl _))]; exact q5
  rw [l1, Option.bind_some, l2, Option.bind_some]
  set T := a ++ D.map some ++ M.map some with hT
  have hTs : T = [] ++ T.take M.length ++ T.drop M.length := by rw [List.nil_append, List.take_append_drop]
  have hTt : (T.take M.length).length = M.length := by simp; omega
  have hTd : (T.drop M.length).length = p.sig_bytes := by simp; omega
  have hJ : T.drop M.length = ((a ++ b).take off ++ (Rfc.toByte 2 p.padding_len ++ ((ib ++ R ++ body).drop p.index_bytes).take p.n ++
      root ++ Rfc.toByte (Rfc.toNat ((ib ++ R ++ body).take p.index_bytes)) p.n ++ M).map some).drop M.length := by
    rw [List.take_left' ha, List.append_assoc ib, List.take_left' hib, List.drop_left' hib, List.take_left' hR, hT, hD,
      ullToBytes_eq, ullToBytes_eq, hidxd]
    simp only [List.map_append, List.append_assoc]
    rfl
  have e : p.index_bytes + p.n + p.d * ((p.wots_len + p.tree_height) * p.n) = p.sig_bytes := hsig.symm
  by_cases h : V = root
  · have hnn : ¬ (V ≠ root) := fun h' => h' h
    simp only [if_pos h, if_neg hnn]
    rw [add_add, e]
    obtain ⟨X3, s3, t4⟩ := storeC_mid (A := []) (B := T.take M.length) (C := T.drop M.length) (x := M)
      (by rw [← hTs]; exact s2) (by rw [hTt])
    have t4 : store X2 mbuf M = some X3 := t4
    rw [memcpy_eq (x := M) (by
        rw [load_left (by show sm.blk < _; omega), load_storeC_disj s2 (by rw [c2]; exact dsm _ _ (by omega))]; exact q4)
      (((dsm p.sig_bytes M.length (by omega)).mono (Nat.le_refl _) (by omega)).symm), store_left_some t4, Option.bind_some,
      release_append (by rw [store_length t4, hX2l])]
    exact ⟨_, X3, hTd, hJ, s3, rfl⟩
  · have hnn : V ≠ root := h
    simp only [if_neg h, if_pos hnn]
    obtain ⟨X3, s3, t4⟩ := storeC_mid (A := []) (B := T.take M.length) (C := T.drop M.length)
      (x := List.replicate M.length 0) (by rw [← hTs]; exact s2) (by rw [hTt]; simp)
    have t4 : store X2 mbuf (List.replicate M.length 0) = some X3 := t4
    rw [store_left_some t4, Option.bind_some, release_append (by rw [store_length t4, hX2l])]
    exact ⟨_, X3, hTd, hJ, s3, rfl⟩

end Xmss.Low
