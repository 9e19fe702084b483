import Verif.Proof.LowFastSer
import Verif.Proof.LowSign
import Verif.Proof.FastBody
/-
The pointer-level model of the fast implementation: the steps that both sign functions have in common.
-/
namespace Xmss.Low

set_option linter.unusedSimpArgs false

variable {P : Prims} {H : Bytes → Bytes} {p : Params}

/-- Decide whether ranges are disjoint. -/
macro "dj " ds:ident* : tactic => `(tactic| (
    simp only [Disj, Apart, add_blk, add_off, List.mem_cons, forall_eq_or_imp, List.not_mem_nil, false_imp_iff, implies_true, and_true] at $ds* ⊢
    omega))

theorem stF {m : Mem} {q : Ptr} {x : Bytes} {len : Nat} (hv : Valid m q len) (hx : x.length = len) :
    ∃ m', store m q x = some m' ∧ OnlyIn m m' [(q, len)] ∧ Holds m' q x := by
  obtain ⟨m', h⟩ := hv.store (x := x) (by omega)
  exact ⟨m', h, by have := store_onlyIn h; rwa [hx] at this, store_holds h⟩

/-- Ranges inside of ranges. -/
theorem OnlyIn.into {m m' : Mem} {a c : List (Ptr × Nat)} (h : OnlyIn m m' a)
    (hs : ∀ r ∈ a, ∃ s ∈ c, r.1.blk = s.1.blk ∧ s.1.off ≤ r.1.off ∧ r.1.off + r.2 ≤ s.1.off + s.2) : OnlyIn m m' c := by
  refine h.mono ?_
  rintro b i ⟨r, hr, h1, h2, h3⟩
  obtain ⟨s, hs1, e1, e2, e3⟩ := hs r hr
  exact ⟨s, hs1, by rw [h1, e1], by omega, by omega⟩

theorem toByte_head (x k : Nat) : Rfc.toByte x (k + 1) = UInt8.ofNat (x / 256 ^ k) :: Rfc.toByte x k := by
  simp only [Rfc.toByte, List.range_succ_eq_map, List.map_cons, List.map_map]
  refine congrArg₂ _ (by simp) ?_
  apply List.map_congr_left
  intro i _
  show UInt8.ofNat (x / 256 ^ (k + 1 - 1 - (i + 1))) = _
  congr 3
  omega

theorem idxStoreLoop_of {out : Ptr} {len x : Nat} (hl : len ≤ 8) : ∀ (k i : Nat) (m : Mem), 0 < k → i + k = len →
    idxStoreLoop out len x k i m = store m (out + i) (Xmss.ullToBytes k x) := by
  intro k
  induction k with
  | zero => intro i m h _; omega
  | succ k ih =>
    intro i m _ hi
    have hs : w32 (8 * usub (usub len 1) i) = 8 * k := by
      rw [usub_eq (a := len) (by omega) (by omega), usub_eq (by omega) (by omega), w32_lt (by omega)]
      congr 1; omega
    rw [idxStoreLoop]
    simp only [hs]
    rw [if_neg (by omega)]
    have he : Xmss.ullToBytes (k + 1) x = UInt8.ofNat ((x >>> (8 * k)) &&& 255) :: Xmss.ullToBytes k x := by
      rw [ullToBytes_eq, ullToBytes_eq]
      rw [toByte_head, UInt8_ofNat_and, Nat.shiftRight_eq_div_pow, Nat.pow_mul]
    cases k with
    | zero =>
      rw [he, show Xmss.ullToBytes 0 x = [] by rfl]
      cases store m (out + i) [UInt8.ofNat ((x >>> (8 * 0)) &&& 255)] <;> rfl
    | succ k =>
      rw [he, show (UInt8.ofNat ((x >>> (8 * (k + 1))) &&& 255) :: Xmss.ullToBytes (k + 1) x) =
        [UInt8.ofNat ((x >>> (8 * (k + 1))) &&& 255)] ++ Xmss.ullToBytes (k + 1) x from rfl, ← store_append]
      rw [Option.bind_eq_bind]
      refine congrArg _ ?_
      funext m'
      rw [ih (i + 1) m' (by omega) (by omega), List.length_singleton, add_add]

theorem valid_load {m : Mem} {q : Ptr} {x : Bytes} (h : Holds m q x) : Valid m q x.length := h.1

set_option maxHeartbeats 4000000 in
/-- From the randomness to the start of the signature (xmss_core_fast.c:643-671 and 857-883). -/
theorem signPhase_of (F0 : Fast0 P H p) {m : Mem} {skPrf idx32 R msgH root sm msg : Ptr} {kf rt M : Bytes} {idx : Nat} (hidx : idx < 2 ^ 64)
    (hib : 0 < p.index_bytes) (h1 : load m idx32 32 = some (Rfc.toByte idx 32)) (h2 : load m skPrf p.n = some kf) (h3 : load m root p.n = some rt)
    (h4 : Holds m msg M) (h5 : Valid m sm (p.sig_bytes + M.length)) (h6 : Valid m R p.n) (h7 : Valid m msgH p.n)
    (d1 : Disj R p.n msgH p.n) (d2 : Disj R p.n sm (p.sig_bytes + M.length)) (d3 : Disj msgH p.n sm (p.sig_bytes + M.length))
    (d4 : Disj root p.n R p.n) (d5 : Disj root p.n sm (p.sig_bytes + M.length))
    (d6 : Disj msg M.length R p.n) (d7 : Disj msg M.length sm (p.sig_bytes + M.length)) (hml : p.sig_bytes + M.length < 2 ^ 64) :
    ∃ x1 x2 mp x3 x4 x5, prf P p m R idx32 skPrf = some x1 ∧ memcpy x1 (sm + p.sig_bytes) msg M.length = some x2 ∧
      (((sm + p.sig_bytes).sub p.padding_len).bind fun q => q.sub (w32 (3 * p.n))) = some mp ∧
      hashMessage P p x2 msgH R root idx mp M.length = some x3 ∧
      idxStoreLoop sm p.index_bytes idx p.index_bytes 0 x3 = some x4 ∧ memcpy x4 (sm + p.index_bytes) R p.n = some x5 ∧
      OnlyIn m x5 [(sm, p.sig_bytes + M.length), (R, p.n), (msgH, p.n)] ∧
      Holds x5 sm (Rfc.toByte idx p.index_bytes ++ (suiteOf p H).PRF kf (Rfc.toByte idx 32)) ∧ Holds x5 (sm + p.sig_bytes) M ∧
      load x5 msgH p.n = some ((suiteOf p H).digest ((suiteOf p H).PRF kf (Rfc.toByte idx 32)) rt idx M) := by
  have g := F0.good
  have hfit := g.prefix_fits
  have hsig := g.sig_eq'
  have fits := fits_of_good g
  have hn16 := fits.n_lt
  have hil := g.idx_le
  have hrt := load_length h3
  have h1632 : (2 : Nat) ^ 16 * 4 < 2 ^ 31 := by norm_num
  have h3132 : (2 : Nat) ^ 31 < 2 ^ 32 := by norm_num
  set Rv := (suiteOf p H).PRF kf (Rfc.toByte idx 32) with hRv
  have hRl : Rv.length = p.n := F0.hlen _
  -- prf
  obtain ⟨x1, s1, o1, H1⟩ := stF h6 hRl
  have e1 : prf P p m R idx32 skPrf = some x1 := by
    rw [prf_of F0.hash fits h1 h2 h6.blk, prf_eq]; exact s1
  -- the message
  have hM1 : load x1 msg M.length = some M := keepLoad o1 (h4.load rfl) (by dj d6)
  obtain ⟨x2, s2, o2, H2⟩ := stF (m := x1) (q := sm + p.sig_bytes) (x := M) ((keepValid o1 h5).sub _ M.length (by omega)) rfl
  have e2 : memcpy x1 (sm + p.sig_bytes) msg M.length = some x2 := by
    rw [memcpy_of hM1 (Or.inr (by dj d7))]; exact s2
  -- the digest
  set off := p.sig_bytes - p.padding_len - 3 * p.n with hoff
  have e3 : (((sm + p.sig_bytes).sub p.padding_len).bind fun q => q.sub (w32 (3 * p.n))) = some (sm + off) := by
    rw [ptr_sub (by omega), Option.bind_some, w32_lt (by omega), ptr_sub (by omega)]
  have v2 := keepValid o2 (keepValid o1 h5)
  have hR2 : load x2 R p.n = some Rv := keepLoad o2 (H1.load hRl) (by dj d2)
  have hr2 : load x2 root p.n = some rt := keepLoad o2 (keepLoad o1 h3 (by dj d4)) (by dj d5)
  set D := Xmss.ullToBytes p.padding_len padHash ++ Rv ++ rt ++ Xmss.ullToBytes p.n idx with hD
  have hDl : D.length = p.padding_len + 3 * p.n := by
    rw [hD]; simp only [List.length_append, ullToBytes_length, hRl, hrt]; omega
  have hdig : H (D ++ M) = (suiteOf p H).digest Rv rt idx M := by
    rw [hD, ullToBytes_eq, ullToBytes_eq]
    simp only [Rfc.Suite.digest, Rfc.Suite.Hmsg, suiteOf, List.append_assoc]; rfl
  obtain ⟨y, sy, oy, Hy⟩ := stF (m := x2) (q := sm + off) (x := D) (v2.sub off _ (by omega)) hDl
  set dg := (suiteOf p H).digest Rv rt idx M with hdg
  have hdgl : dg.length = p.n := F0.hlen _
  obtain ⟨x3, s3, o3, H3⟩ := stF (m := y) (q := msgH) (x := dg) (keepValid oy (keepValid o2 (keepValid o1 h7))) hdgl
  have e4 : hashMessage P p x2 msgH R root idx (sm + off) M.length = some x3 := by
    rw [hashMessage_of F0.hash fits (r := Rv) (t := rt) (msg := M) (v2.sub off (p.padding_len + 3 * p.n) (by omega)).store_nil hR2 hr2
      (by rw [add_add, show off + (p.padding_len + 3 * p.n) = p.sig_bytes by omega]; exact H2.load rfl) (by dj d2) (by dj d5) hidx (by omega)
      (by have := store_blk s3; rw [store_length sy] at this; exact this),
      ← hD, sy, Option.bind_some, hdig]
    exact s3
  have v3 := keepValid o3 (keepValid oy v2)
  have hM3 : Holds x3 (sm + p.sig_bytes) M := (H2.keep oy (by dj d1)).keep o3 (by dj d3)
  have hR3 : load x3 R p.n = some Rv := keepLoad o3 (keepLoad oy hR2 (by dj d2)) (by dj d1)
  -- the index
  obtain ⟨x4, s4, o4, H4⟩ := stF (m := x3) (q := sm) (x := Rfc.toByte idx p.index_bytes) (v3.sub 0 p.index_bytes (by omega)) (toByte_length _ _)
  have e5 : idxStoreLoop sm p.index_bytes idx p.index_bytes 0 x3 = some x4 := by
    rw [idxStoreLoop_of hil p.index_bytes 0 x3 hib (by omega), ullToBytes_eq]; exact s4
  have hR4 : load x4 R p.n = some Rv := keepLoad o4 hR3 (by dj d2)
  obtain ⟨x5, s5, o5, H5⟩ := stF (m := x4) (q := sm + p.index_bytes) (x := Rv) ((keepValid o4 v3).sub _ p.n (by omega)) hRl
  have e6 : memcpy x4 (sm + p.index_bytes) R p.n = some x5 := by
    rw [memcpy_of hR4 (Or.inr (by dj d2))]; exact s5
  refine ⟨x1, x2, sm + off, x3, x4, x5, e1, e2, e3, e4, e5, e6, ?_, ?_, ?_, ?_⟩
  · have big : ∀ {a b : Mem} {q : Ptr} {len : Nat}, OnlyIn a b [(q, len)] → (q = R ∧ len = p.n ∨ q = msgH ∧ len = p.n ∨
        ∃ o, q = sm + o ∧ o + len ≤ p.sig_bytes + M.length) →
        OnlyIn a b [(sm, p.sig_bytes + M.length), (R, p.n), (msgH, p.n)] := by
      intro a b q len h hc
      refine h.into ?_
      intro r hr
      simp only [List.mem_singleton] at hr
      subst hr
      rcases hc with ⟨rfl, rfl⟩ | ⟨rfl, rfl⟩ | ⟨o, rfl, ho⟩
      · exact ⟨_, by simp, rfl, Nat.le_refl _, Nat.le_refl _⟩
      · exact ⟨_, by simp, rfl, Nat.le_refl _, Nat.le_refl _⟩
      · exact ⟨(sm, p.sig_bytes + M.length), by simp, rfl, Nat.le_add_right _ _, by show sm.off + o + len ≤ _; simp only; omega⟩
    exact (((((big o1 (Or.inl ⟨rfl, rfl⟩)).tr (big o2 (Or.inr (Or.inr ⟨_, rfl, by omega⟩)))).tr (big oy (Or.inr (Or.inr ⟨_, rfl, by omega⟩)))).tr
      (big o3 (Or.inr (Or.inl ⟨rfl, rfl⟩)))).tr (big o4 (Or.inr (Or.inr ⟨0, rfl, by omega⟩)))).tr (big o5 (Or.inr (Or.inr ⟨_, rfl, by omega⟩)))
  · rw [holds_append, toByte_length]
    refine ⟨H4.keep o5 ?_, H5⟩
    rw [toByte_length]; dj d1
  · exact (hM3.keep o4 (by dj d1)).keep o5 (by dj d1)
  · exact keepLoad o5 (keepLoad o4 (H3.load hdgl) (by dj d3)) (by dj d3)

end Xmss.Low
