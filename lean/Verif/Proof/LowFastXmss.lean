import Verif.Proof.LowFastSign
/-
The pointer-level model of the fast implementation: `xmss_core_sign`.
-/
namespace Xmss.Low

set_option linter.unusedSimpArgs false

variable {P : Prims} {H : Bytes → Bytes} {p : Params}

/-- A new local array, filled. -/
theorem store_new {m : Mem} {x : Bytes} {n : Nat} (hx : x.length = n) :
    store (m ++ [List.replicate n none]) ⟨m.length, 0⟩ x = some (m ++ [x.map some]) := by
  rw [store_right0]
  have : store [List.replicate n (none : Cell)] ⟨0, 0⟩ x = some [x.map some] :=
    store_eq_some.mpr ⟨_, _, rfl, write_full (by simp [hx]), rfl⟩
  rw [this]; rfl

theorem load_new {m : Mem} {x : Bytes} {n : Nat} (hx : x.length = n) : load (m ++ [x.map some]) ⟨m.length, 0⟩ n = some x := by
  rw [load_right0]
  show (Block.read (x.map some) 0 n) = _
  exact read_full hx

theorem copy_new {m : Mem} {src : Ptr} {x : Bytes} {n : Nat} (h : load m src n = some x) :
    memcpy (m ++ [List.replicate n none]) ⟨m.length, 0⟩ src n = some (m ++ [x.map some]) := by
  have hb := load_blk h
  rw [memcpy_of (x := x) (by rw [load_left hb]; exact h) (Or.inr (Or.inl (by show m.length ≠ src.blk; omega))), store_new (load_length h)]

theorem holds_release {m0 m' : Mem} {q : Ptr} {x : Bytes} (h : Holds m' q x) (hb : q.blk < m0.length) : Holds (release m0 m') q x := by
  rw [holds_iff] at h ⊢
  rw [load_release hb]; exact h

theorem holds_left {m L : Mem} {q : Ptr} {x : Bytes} (h : Holds m q x) : Holds (m ++ L) q x := by
  rw [holds_iff] at h ⊢
  rw [load_left (load_blk h)]; exact h

/-- One range inside of another. -/
theorem OnlyIn.into1 {m m' : Mem} {q : Ptr} {len : Nat} {c : List (Ptr × Nat)} (h : OnlyIn m m' [(q, len)]) (s : Ptr) (l : Nat) (hs : (s, l) ∈ c)
    (hb : q.blk = s.blk) (h1 : s.off ≤ q.off) (h2 : q.off + len ≤ s.off + l) : OnlyIn m m' c := by
  refine h.into ?_
  intro r hr
  simp only [List.mem_singleton] at hr
  subst hr
  exact ⟨(s, l), hs, hb, h1, h2⟩

/-- The parts of the regular secret key. -/
theorem skHead_loads {m : Mem} {sk : Ptr} {ib ks kf root ps : Bytes} (h : Holds m sk (skHead ib ks kf root ps))
    (hib : ib.length = p.index_bytes) (h1 : ks.length = p.n) (h2 : kf.length = p.n) (h3 : root.length = p.n) (h4 : ps.length = p.n) :
    load m sk p.index_bytes = some ib ∧ load m (sk + p.index_bytes) p.n = some ks ∧ load m (sk + p.index_bytes + p.n) p.n = some kf ∧
    load m (sk + p.index_bytes + 2 * p.n) p.n = some root ∧ load m (sk + p.index_bytes + 3 * p.n) p.n = some ps ∧
    Holds m (sk + p.index_bytes) (ks ++ kf ++ root ++ ps) := by
  rw [skHead] at h
  simp only [holds_append, List.length_append, hib, h1, h2, h3] at h
  obtain ⟨⟨⟨⟨a, b⟩, c⟩, d⟩, e⟩ := h
  have c' : Holds m (sk + p.index_bytes + p.n) kf := by rw [add_add]; exact c
  have d' : Holds m (sk + p.index_bytes + 2 * p.n) root := by
    rw [add_add, show p.index_bytes + 2 * p.n = p.index_bytes + p.n + p.n by omega]; exact d
  have e' : Holds m (sk + p.index_bytes + 3 * p.n) ps := by
    rw [add_add, show p.index_bytes + 3 * p.n = p.index_bytes + p.n + p.n + p.n by omega]; exact e
  refine ⟨a.load hib, b.load h1, c'.load h2, d'.load h3, e'.load h4, ?_⟩
  simp only [holds_append, List.length_append, h1, h2, h3]
  refine ⟨⟨⟨b, c'⟩, ?_⟩, ?_⟩
  · rw [show p.n + p.n = 2 * p.n by omega]; exact d'
  · rw [show p.n + p.n + p.n = 3 * p.n by omega]; exact e'

/-- The authentication path of a state in memory. -/
theorem Sim.auth_load {b : Ptr} {m : Mem} {lv : Levels} {w : BdsState} (S : Sim p (.upd b) false m lv w) :
    load m (b + offF p (.auth 0)) (p.tree_height * p.n) = some w.auth.flatten := by
  have ft := S.fit
  have hv : Valid m b (stSize p) := S.room (b, stSize p) (by simp [Mode.ranges])
  have hl : w.auth.flatten.length = p.tree_height * p.n := by rw [flatten_length_of ft.auth_mem, ft.auth_len]
  refine Holds.load ?_ hl
  rw [holds_flatten _ _ ft.auth_mem (by rw [ft.auth_len]; exact hv.sub _ _ (by simp only [offF, stSize]; omega))]
  intro j x hj
  have := S.get (f := .auth j) ⟨by simp, trivial⟩ hj
  rw [add_add]
  rw [show offF p (.auth 0) + j * p.n = offF p (.auth j) by simp only [offF]; omega]
  exact this

set_option maxHeartbeats 1000000 in
/-- From the randomness to the first authentication path (xmss_core_fast.c:643-688 and 857-914). -/
theorem signFirst_of (F0 : Fast0 P H p) {m : Mem} {pF pI R msgH root sm msg pS pP b : Ptr} {kf rt M ks ps : Bytes} {idx N : Nat} (hidx : idx < 2 ^ 64)
    (hib : 0 < p.index_bytes) (gI : load m pI 32 = some (Rfc.toByte idx 32)) (gF : load m pF p.n = some kf) (groot : load m root p.n = some rt)
    (gM : Holds m msg M) (gsm : Valid m sm (p.sig_bytes + M.length)) (gR : Valid m R p.n) (gH : Valid m msgH p.n)
    (gS : load m pS p.n = some ks) (gP : load m pP p.n = some ps) (hA : p.index_bytes + p.n + p.wots_len * p.n + p.tree_height * p.n ≤ p.sig_bytes)
    (bR : N ≤ R.blk) (bH : N ≤ msgH.blk) (bRH : R.blk ≠ msgH.blk) (bS : N ≤ pS.blk) (bP : N ≤ pP.blk) (bS1 : pS.blk ≠ R.blk) (bS2 : pS.blk ≠ msgH.blk)
    (bP1 : pP.blk ≠ R.blk) (bP2 : pP.blk ≠ msgH.blk) (bsm : sm.blk < N) (bmsg : msg.blk < N) (broot : root.blk < N) (bb : b.blk < N)
    (d5 : Disj root p.n sm (p.sig_bytes + M.length)) (d7 : Disj msg M.length sm (p.sig_bytes + M.length))
    (db : Disj b (stSize p) sm (p.sig_bytes + M.length)) (hml : p.sig_bytes + M.length < 2 ^ 64) {w : BdsState} {lv : Levels}
    (S : Sim p (.upd b) false m lv w) (A0 : Addr)
    (hWl : (Xmss.wotsSign H p ((suiteOf p H).digest ((suiteOf p H).PRF kf (Rfc.toByte idx 32)) rt idx M) ks ps A0).1.flatten.length =
      p.wots_len * p.n) :
    ∃ x1 x2 mp x3 x4 x5 x6 x7, prf P p m R pI pF = some x1 ∧ memcpy x1 (sm + p.sig_bytes) msg M.length = some x2 ∧
      (((sm + p.sig_bytes).sub p.padding_len).bind fun q => q.sub (w32 (3 * p.n))) = some mp ∧
      hashMessage P p x2 msgH R root idx mp M.length = some x3 ∧
      idxStoreLoop sm p.index_bytes idx p.index_bytes 0 x3 = some x4 ∧ memcpy x4 (sm + p.index_bytes) R p.n = some x5 ∧
      wotsSign P p x5 (sm + p.index_bytes + p.n) msgH pS pP A0 = some (x6, (Xmss.wotsSign H p ((suiteOf p H).digest
        ((suiteOf p H).PRF kf (Rfc.toByte idx 32)) rt idx M) ks ps A0).2) ∧
      memcpy x6 (sm + p.index_bytes + p.n + p.wots_sig_bytes) (lst p b w).auth (w32 (p.tree_height * p.n)) = some x7 ∧
      OnlyIn m x7 [(sm, p.sig_bytes + M.length), (R, p.n), (msgH, p.n)] ∧
      Holds x7 sm (Rfc.toByte idx p.index_bytes ++ (suiteOf p H).PRF kf (Rfc.toByte idx 32) ++
        (Xmss.wotsSign H p ((suiteOf p H).digest ((suiteOf p H).PRF kf (Rfc.toByte idx 32)) rt idx M) ks ps A0).1.flatten ++ w.auth.flatten) := by
  have g := F0.good
  have hn := g.n_pos
  have hth := g.th_lt
  have hsw := g.sig_wots
  have ft := S.fit
  have hRl : ((suiteOf p H).PRF kf (Rfc.toByte idx 32)).length = p.n := F0.hlen _
  obtain ⟨x1, x2, mp, x3, x4, x5, e1, e2, e3, e4, e5, e6, o5, H5, -, ldg⟩ := signPhase_of (H := H) F0 hidx hib gI gF groot gM gsm gR gH
    (by dj) (by dj) (by dj) (by dj) d5 (by dj) d7 hml
  generalize (suiteOf p H).PRF kf (Rfc.toByte idx 32) = Rv at *
  generalize hdg : (suiteOf p H).digest Rv rt idx M = dg at *
  have v5 := keepValid o5 gsm
  obtain ⟨x6, s6, e7⟩ := wotsSign_of F0.hash F0.hlen g (m := x5) (sig := sm + p.index_bytes + p.n) (msg := msgH) (seed := pS) (pubSeed := pP)
    (M := dg) (k := ks) (s := ps) (by rw [add_add]; exact v5.sub _ _ (by omega)) (by dj) (by dj) ldg
    (keepLoad o5 gS (by dj)) (keepLoad o5 gP (by dj)) A0
  generalize Xmss.wotsSign H p dg ks ps A0 = W at *
  have o6 : OnlyIn x5 x6 [(sm + p.index_bytes + p.n, p.wots_len * p.n)] := by have := store_onlyIn s6; rwa [hWl] at this
  have H6 := store_holds s6
  have S5 : Sim p (.upd b) false x5 lv w := S.keep o5 (by dj db)
  have S6 : Sim p (.upd b) false x6 lv w := S5.keep o6 (by dj db)
  have v6 := keepValid o6 v5
  have hal : w.auth.flatten.length = p.tree_height * p.n := by rw [flatten_length_of ft.auth_mem, ft.auth_len]
  obtain ⟨x7, s7, o7, H7⟩ := stF (m := x6) (q := sm + p.index_bytes + p.n + p.wots_sig_bytes) (x := w.auth.flatten)
    (len := p.tree_height * p.n) (by rw [add_add, add_add]; exact v6.sub _ _ (by omega)) hal
  have e8 : memcpy x6 (sm + p.index_bytes + p.n + p.wots_sig_bytes) (lst p b w).auth (w32 (p.tree_height * p.n)) = some x7 := by
    rw [F0.mul_lt (by omega), show (lst p b w).auth = b + offF p (.auth 0) from rfl, memcpy_of S6.auth_load (Or.inr ?_)]
    · exact s7
    · have : offF p (.auth 0) + p.tree_height * p.n ≤ stSize p := by simp only [offF, stSize]; omega
      (dj db)
  refine ⟨x1, x2, mp, x3, x4, x5, x6, x7, e1, e2, e3, e4, e5, e6, e7, e8, ?_, ?_⟩
  · refine (o5.tr (o6.into ?_)).tr (o7.into ?_)
    · intro r hr
      simp only [List.mem_singleton] at hr
      subst hr
      exact ⟨(sm, p.sig_bytes + M.length), by simp, rfl, by simp only [add_off]; omega, by simp only [add_off]; omega⟩
    · intro r hr
      simp only [List.mem_singleton] at hr
      subst hr
      exact ⟨(sm, p.sig_bytes + M.length), by simp, rfl, by simp only [add_off]; omega, by simp only [add_off]; omega⟩
  · have hl : (Rfc.toByte idx p.index_bytes ++ Rv).length = p.index_bytes + p.n := by rw [List.length_append, toByte_length, hRl]
    rw [holds_append, holds_append]
    refine ⟨⟨(H5.keep o6 ?_).keep o7 ?_, ?_⟩, ?_⟩
    · rw [hl]; dj bR
    · rw [hl]; dj bR
    · rw [hl, ← add_add]; refine H6.keep o7 ?_
      rw [hWl]; dj bR
    · rw [List.length_append, hl, hWl, ← hsw, ← add_add, ← add_add]; exact H7

/-- The step of the tree traversal in `xmss_core_sign`. -/
theorem traverse_sim (F0 : Fast0 P H p) {m : Mem} {b pS pP : Ptr} {ks ps : Bytes} {w w' : BdsState} {lv : Levels} {idx : Nat} {a : Addr}
    (S : Sim p (.upd b) false m lv w) (tS : load m pS p.n = some ks) (tP : load m pP p.n = some ps) (hS : pS.blk ≠ b.blk) (hP : pP.blk ≠ b.blk)
    (sh : Shape p w) (hT : xmssTraverse H p ks ps idx w a = some w') :
    ∃ x, (if idx < (1 <<< p.tree_height) - 1 then do
        let r ← bdsRoundL P p m (lst p b w) idx pS pP a
        let r ← bdsTreehashUpdateL P p r.2 r.1 (instsL p >>> 1) pS pP a
        some (r.1, r.2.2)
      else some (lst p b w, m) : Option (LState × Mem)) = some (lst p b w', x) ∧ OnlyIn m x [(b, stSize p)] ∧
      Sim p (.upd b) false x lv w' ∧ (∀ t ∈ w'.treehash, t.nextIdx < 2 ^ 64) ∧ w'.nextLeaf = w.nextLeaf := by
  have hth := F0.good.th_lt
  have h3264 : (2 : Nat) ^ 32 + 2 ^ 32 < 2 ^ 64 := by norm_num
  unfold xmssTraverse at hT
  by_cases hc : idx < (1 <<< p.tree_height) - 1
  · rw [if_pos hc] at hT ⊢
    obtain ⟨w1, r1, hT⟩ := Option.bind_eq_some_iff.mp hT
    obtain ⟨r, r2, hT⟩ := Option.bind_eq_some_iff.mp hT
    cases hT
    rw [Nat.one_shiftLeft] at hc
    have hpow : 2 ^ p.tree_height ≤ 2 ^ 32 := Nat.pow_le_pow_right (by omega) (by omega)
    obtain ⟨y1, q1, q2, q3, q4, q5⟩ := bdsRound_sim F0 S tS tP (by dj) (by dj) (K := 2 ^ 32) (by omega)
      (fun t ht => (sh.insts_mem t ht).2.1) hpow r1
    have hu : p.insts >>> 1 < 32 := by rw [F0.insts, Nat.shiftRight_one]; omega
    obtain ⟨y2, u1, u2, u3, u4, u5⟩ := bdsTreehashUpdate_sim F0 (by dj) (by dj) q3 (keepLoad q2 tS (by dj)) (keepLoad q2 tP (by dj)) q4
      (by omega) (by omega) r2
    refine ⟨y2, ?_, q2.tr u2, u3, fun t ht => by have := u4 t ht; omega, by rw [u5, q5]⟩
    rw [q1, Option.bind_eq_bind, Option.bind_some]
    dsimp only
    rw [F0.instsL, ← F0.insts, u1]
    rfl
  · rw [if_neg hc] at hT ⊢
    cases hT
    exact ⟨m, rfl, onlyIn_refl _ _, S, fun t ht => by have := (sh.insts_mem t ht).2.1; omega, rfl⟩

/-- The locals and the new index in the key (xmss_core_fast.c:624-645). -/
theorem signLocals_of (F0 : Fast0 P H p) (hI : p.index_bytes = 4) {m0 : Mem} {sk : Ptr} {ib ks kf root ps : Bytes} {idx : Nat} (hidx : idx + 1 < 2 ^ 64)
    (hsk : Holds m0 sk (skHead ib ks kf root ps)) (hib : ib.length = p.index_bytes) (h1 : ks.length = p.n) (h2 : kf.length = p.n)
    (h3 : root.length = p.n) (h4 : ps.length = p.n) :
    ∃ L me, (∀ (f : Ptr → Ptr → Ptr → Ptr → Ptr → Ptr → Mem → Option (Nat × Mem)), (do
        let (skSeed, m) ← alloc m0 p.n
        let m ← memcpy m skSeed (sk + p.index_bytes) p.n
        let (skPrf, m) ← alloc m p.n
        let m ← memcpy m skPrf (sk + p.index_bytes + p.n) p.n
        let (pubSeed, m) ← alloc m p.n
        let m ← memcpy m pubSeed (sk + p.index_bytes + w32 (3 * p.n)) p.n
        let (idx32, m) ← alloc m 32
        let m ← ullToBytes m idx32 32 idx
        let m ← idxStoreLoop sk 4 (w64 (idx + 1)) 4 0 m
        let (R, m) ← alloc m p.n
        let (msgH, m) ← alloc m p.n
        f skSeed skPrf pubSeed idx32 R msgH m) = f ⟨m0.length, 0⟩ ⟨m0.length + 1, 0⟩ ⟨m0.length + 2, 0⟩ ⟨m0.length + 3, 0⟩ ⟨m0.length + 4, 0⟩
          ⟨m0.length + 5, 0⟩ me) ∧
      OnlyIn (m0 ++ L) me [(sk, p.index_bytes)] ∧ Holds me sk (skHead (Rfc.toByte (idx + 1) p.index_bytes) ks kf root ps) ∧
      load me ⟨m0.length, 0⟩ p.n = some ks ∧ load me ⟨m0.length + 1, 0⟩ p.n = some kf ∧ load me ⟨m0.length + 2, 0⟩ p.n = some ps ∧
      load me ⟨m0.length + 3, 0⟩ 32 = some (Rfc.toByte idx 32) ∧ Valid me ⟨m0.length + 4, 0⟩ p.n ∧ Valid me ⟨m0.length + 5, 0⟩ p.n := by
  have g := F0.good
  have hn := g.n_pos
  have fits := fits_of_good g
  have hn16 := fits.n_lt
  have h1632 : (2 : Nat) ^ 16 * 4 + 8 < 2 ^ 32 := by norm_num
  obtain ⟨l0, l1, l2, l3, l4, l5⟩ := skHead_loads hsk hib h1 h2 h3 h4
  have bsk : sk.blk < m0.length := load_blk l0
  have hYl : (Rfc.toByte idx 32).length = 32 := toByte_length _ _
  have ld : ∀ {q : Ptr} {len : Nat} (L : Mem), q.blk < m0.length → load (m0 ++ L) q len = load m0 q len := fun L h => load_left h
  set L4 : Mem := [ks.map some] ++ [kf.map some] ++ [ps.map some] ++ [(Rfc.toByte idx 32).map some] with hL4
  set N : Cell := none with hN
  set L6 : Mem := L4 ++ ([List.replicate p.n N] ++ [List.replicate p.n N]) with hL6
  obtain ⟨mx, sx, ox, Hx⟩ := stF (m := m0 ++ L4) (q := sk) (x := Rfc.toByte (idx + 1) p.index_bytes) (valid_of_load l0).left (toByte_length _ _)
  have lmx : mx.length = m0.length + 4 := by rw [ox.len]; simp [hL4]
  have ox' : OnlyIn (m0 ++ L6) (mx ++ ([List.replicate p.n N] ++ [List.replicate p.n N])) [(sk, p.index_bytes)] := by
    rw [hL6, ← List.append_assoc]; exact onlyIn_append ox
  refine ⟨L6, mx ++ ([List.replicate p.n N] ++ [List.replicate p.n N]), ?_, ox', ?_, ?_, ?_, ?_, ?_, ?_, ?_⟩
  · intro f
    simp only [Option.bind_eq_bind]
    rw [w32_lt (x := 3 * p.n) (by omega), alloc_pos hn, Option.bind_some]
    dsimp only
    rw [copy_new l1, Option.bind_some, alloc_pos hn, Option.bind_some]
    dsimp only
    rw [copy_new (by rw [ld _ (by exact bsk)]; exact l2), Option.bind_some, alloc_pos hn, Option.bind_some]
    dsimp only
    rw [copy_new (by rw [List.append_assoc, ld _ (by exact bsk)]; exact l4), Option.bind_some, alloc_pos (by omega), Option.bind_some]
    dsimp only
    rw [ullToBytes_of (Or.inl (by omega)) (by omega) (by omega), ullToBytes_eq, store_new hYl, Option.bind_some,
      idxStoreLoop_of (by omega) 4 0 _ (by omega) (by omega), w64_lt (by omega), ullToBytes_eq, show sk + 0 = sk from rfl]
    have sx' : store (m0 ++ [ks.map some] ++ [kf.map some] ++ [ps.map some] ++ [(Rfc.toByte idx 32).map some]) sk (Rfc.toByte (idx + 1) 4) = some mx := by
      rw [← hI, ← sx, hL4]; simp only [List.append_assoc]
    rw [sx', Option.bind_some, alloc_pos hn, Option.bind_some]
    dsimp only
    rw [alloc_pos hn, Option.bind_some]
    dsimp only
    simp only [List.length_append, List.length_singleton, lmx, List.append_assoc]
    rfl
  · rw [skHead, List.append_assoc, List.append_assoc, List.append_assoc, holds_append, toByte_length]
    refine ⟨holds_left Hx, ?_⟩
    have hl : (ks ++ (kf ++ (root ++ ps))).length = 4 * p.n := by simp only [List.length_append]; omega
    have l5' : Holds (m0 ++ L6) (sk + p.index_bytes) (ks ++ (kf ++ (root ++ ps))) := by
      simp only [List.append_assoc] at l5; exact holds_left l5
    refine l5'.keep ox' ?_
    rw [hl]; dj
  · refine keepLoad ox' ?_ (by dj)
    rw [load_right0]; exact read_full h1
  · refine keepLoad ox' ?_ (by dj)
    rw [load_right]; exact read_full h2
  · refine keepLoad ox' ?_ (by dj)
    rw [load_right]; exact read_full h4
  · refine keepLoad ox' ?_ (by dj)
    rw [load_right]; exact read_full hYl
  · refine keepValid ox' ⟨List.replicate p.n N, ?_, by simp⟩
    rw [List.getElem?_append_right (by simp)]
    simp [hL6, hL4]
  · refine keepValid ox' ⟨List.replicate p.n N, ?_, by simp⟩
    rw [List.getElem?_append_right (by simp)]
    simp [hL6, hL4]

set_option maxHeartbeats 1000000 in
/-- `xmss_core_sign` after the exhaustion check. -/
theorem fastXmssSignBody_sim (F0 : Fast0 P H p) (hd : p.d = 1) (hI : p.index_bytes = 4) {m0 : Mem} {sk sm msg : Ptr}
    {ib ks kf root ps M : Bytes} {w w' : BdsState} {lv : Levels} {idx : Nat} (hidx : idx + 1 < 2 ^ 64)
    (hsk : Holds m0 sk (skHead ib ks kf root ps)) (hib : ib.length = p.index_bytes) (h1 : ks.length = p.n) (h2 : kf.length = p.n)
    (h3 : root.length = p.n) (h4 : ps.length = p.n) (sh : Shape p w) (S : Sim p (.upd (sk + (p.index_bytes + 4 * p.n))) false m0 lv w)
    (hM : Holds m0 msg M) (hv : Valid m0 sm (p.sig_bytes + M.length))
    (d1 : Disj sk (p.index_bytes + 4 * p.n + stSize p) sm (p.sig_bytes + M.length)) (d2 : Disj msg M.length sm (p.sig_bytes + M.length))
    (d3 : Disj msg M.length sk (p.index_bytes + 4 * p.n + stSize p)) (hml : p.sig_bytes + M.length < 2 ^ 64)
    (hT : xmssTraverse H p ks ps idx w (Xmss.wotsSign H p ((suiteOf p H).digest ((suiteOf p H).PRF kf (Rfc.toByte idx 32)) root idx M) ks ps
      (setOtsAddr (setType Addr.zero typeOts) idx)).2 = some w') :
    ∃ m', fastXmssSignBodyL P p m0 sk sm msg M.length (lst p (sk + (p.index_bytes + 4 * p.n)) w) idx = some (p.sig_bytes + M.length, m') ∧
      OnlyIn m0 m' [(sk, p.index_bytes + 4 * p.n + stSize p), (sm, p.sig_bytes + M.length)] ∧
      Holds m' sk (skHead (Rfc.toByte (idx + 1) p.index_bytes) ks kf root ps ++ stateBytes w') ∧
      Holds m' sm (Rfc.toByte idx p.index_bytes ++ (suiteOf p H).PRF kf (Rfc.toByte idx 32) ++
        (Xmss.wotsSign H p ((suiteOf p H).digest ((suiteOf p H).PRF kf (Rfc.toByte idx 32)) root idx M) ks ps
          (setOtsAddr (setType Addr.zero typeOts) idx)).1.flatten ++ w.auth.flatten ++ M) := by
  have g := F0.good
  have hth := g.th_lt
  have hn := g.n_pos
  have hsig := g.sig_eq'
  rw [hd, one_mul, Nat.add_mul] at hsig
  have hsw := g.sig_wots
  have hn16 := (fits_of_good g).n_lt
  have h1632 : (2 : Nat) ^ 16 * 4 + 8 < 2 ^ 32 := by norm_num
  have bsk : sk.blk < m0.length := load_blk (hsk.load rfl)
  have bsm : sm.blk < m0.length := hv.blk
  have bmsg : msg.blk < m0.length := load_blk (hM.load rfl)
  obtain ⟨L, mg, hf, og, gsk, gS, gF, gP, gI, gR, gH⟩ := signLocals_of F0 hI hidx hsk hib h1 h2 h3 h4
  have hIl := toByte_length (idx + 1) p.index_bytes
  obtain ⟨-, -, -, groot, -, -⟩ := skHead_loads gsk hIl h1 h2 h3 h4
  have hdgl : ((suiteOf p H).digest ((suiteOf p H).PRF kf (Rfc.toByte idx 32)) root idx M).length = p.n := F0.hlen _
  have hRl : ((suiteOf p H).PRF kf (Rfc.toByte idx 32)).length = p.n := F0.hlen _
  have hWl : (Xmss.wotsSign H p ((suiteOf p H).digest ((suiteOf p H).PRF kf (Rfc.toByte idx 32)) root idx M) ks ps
      (setOtsAddr (setType Addr.zero typeOts) idx)).1.flatten.length = p.wots_len * p.n := by
    rw [(Xmss.wotsSign_eq (H := H) g (layer := 0) (tree := 0) (ots := idx) ks ps hdgl _ ⟨rfl, rfl, rfl, rfl, rfl⟩).1]
    exact wotsSig_flat_length g F0.hlen ks ps _ 0 0 idx
  have gM : Holds mg msg M := (holds_left hM).keep og (by dj d3)
  have gsm : Valid mg sm (p.sig_bytes + M.length) := keepValid og hv.left
  have gSim : Sim p (.upd (sk + (p.index_bytes + 4 * p.n))) false mg lv w := S.append.keep og (by dj)
  obtain ⟨x1, x2, mp, x3, x4, x5, x6, x7, e1, e2, e3, e4, e5, e6, e7, e8, o7, H7⟩ := signFirst_of F0 (N := m0.length)
    (by omega) (by omega) gI gF groot gM gsm gR gH gS gP (by omega) (by show _ ≤ m0.length + 4; omega) (by show _ ≤ m0.length + 5; omega)
    (by show m0.length + 4 ≠ m0.length + 5; omega) (Nat.le_refl _) (Nat.le_add_right _ 2) (by show m0.length ≠ m0.length + 4; omega)
    (by show m0.length ≠ m0.length + 5; omega) (by show m0.length + 2 ≠ m0.length + 4; omega) (by show m0.length + 2 ≠ m0.length + 5; omega)
    bsm bmsg bsk (b := sk + (p.index_bytes + 4 * p.n)) bsk (by dj d1) d2 (by dj d1) hml gSim _ hWl
  have hal : w.auth.flatten.length = p.tree_height * p.n := sh.auth_flat
  generalize Xmss.wotsSign H p ((suiteOf p H).digest ((suiteOf p H).PRF kf (Rfc.toByte idx 32)) root idx M) ks ps
      (setOtsAddr (setType Addr.zero typeOts) idx) = W at *
  generalize (suiteOf p H).PRF kf (Rfc.toByte idx 32) = Rv at *
  set b : Ptr := sk + (p.index_bytes + 4 * p.n) with hb
  have bb : b.blk = sk.blk := rfl
  have ob : b.off = sk.off + (p.index_bytes + 4 * p.n) := rfl
  have S7 : Sim p (.upd b) false x7 lv w := gSim.keep o7 (by dj d1)
  obtain ⟨x8, e9, o8, S8, k8, n8⟩ := traverse_sim F0 S7 (keepLoad o7 gS (by dj)) (keepLoad o7 gP (by dj)) (by show m0.length ≠ _; omega)
    (by show m0.length + 2 ≠ _; omega) sh hT
  have M8 : load x8 msg M.length = some M := keepLoad o8 (keepLoad o7 (gM.load rfl) (by dj d2)) (by dj d3)
  have v8 := keepValid o8 (keepValid o7 gsm)
  obtain ⟨x9, s9, o9, H9⟩ := stF (m := x8) (q := sm + p.index_bytes + p.n + p.wots_sig_bytes + p.tree_height * p.n) (x := M) (len := M.length)
    (by rw [add_add, add_add, add_add]; exact v8.sub _ _ (by omega)) rfl
  have e10 : memcpy x8 (sm + p.index_bytes + p.n + p.wots_sig_bytes + w32 (p.tree_height * p.n)) msg M.length = some x9 := by
    rw [F0.mul_lt (by omega), memcpy_of M8 (Or.inr (by dj d2))]; exact s9
  have S9 : Sim p (.upd b) false x9 lv w' := S8.keep o9 (by dj d1)
  have v9 : Valid x9 b (stSize p) := S9.room (b, stSize p) (by simp [Mode.ranges])
  -- writing the state back
  obtain ⟨x10, e11, o10, H10⟩ := writeStatesL_of F0 [w'] b x9 (by simpa using v9)
    (by
      intro s hs
      simp only [List.mem_singleton] at hs
      subst hs
      refine ⟨k8, ?_⟩
      rw [n8]
      exact lt_trans sh.next_lt (by norm_num))
    (by
      intro i s hi
      cases i with
      | zero =>
        simp only [List.getElem?_cons_zero, Option.some.injEq] at hi
        subst hi
        refine ⟨lv, ?_⟩
        rw [Nat.zero_mul]
        exact S9
      | succ i => simp at hi)
  simp only [List.length_singleton, Nat.one_mul] at o10
  simp only [List.map_cons, List.map_nil, List.flatten_cons, List.flatten_nil, List.append_nil] at H10
  have e12 : serializeL p x9 sk [lst p b w'] = some x10 := by
    rw [serializeL, w32_lt (x := 4 * p.n) (by omega), w32_lt (by omega), ← hb, ← e11, lstates_cons]
    rfl
  refine ⟨release m0 x10, ?_, ?_, ?_, ?_⟩
  · rw [fastXmssSignBodyL]
    refine (hf (fastXmssSignRestL P p m0 sk sm msg M.length (lst p b w) idx)).trans ?_
    rw [fastXmssSignRestL]
    simp only [Option.bind_eq_bind]
    rw [w32_lt (x := 2 * p.n) (by omega)]
    obtain ⟨q1, f1, f2⟩ := Option.bind_eq_some_iff.mp e3
    have e5' : idxStoreLoop sm 4 idx 4 0 x3 = some x4 := by rw [← hI]; exact e5
    rw [hI] at e4 e6 e7 e8 e10
    rw [e1, Option.bind_some, e2, Option.bind_some, f1, Option.bind_some, f2, Option.bind_some, hI,
      e4, Option.bind_some, e5', Option.bind_some, e6, Option.bind_some, e7, Option.bind_some]
    dsimp only
    rw [e8, Option.bind_some, if_neg (by omega)]
    have e9' := e9
    simp only [Option.bind_eq_bind] at e9'
    rw [e9', Option.bind_some]
    dsimp only
    rw [e10, Option.bind_some, e12, Option.bind_some, F0.mul_lt (by omega)]
    rw [show 4 + p.n + p.wots_sig_bytes + p.tree_height * p.n + M.length = p.sig_bytes + M.length by omega, w64_lt hml]
  · have og' : OnlyIn (m0 ++ L) mg [(sk, p.index_bytes + 4 * p.n + stSize p), (sm, p.sig_bytes + M.length),
        (⟨m0.length + 4, 0⟩, p.n), (⟨m0.length + 5, 0⟩, p.n)] := og.into1 sk (p.index_bytes + 4 * p.n + stSize p) (by simp) rfl (Nat.le_refl _) (by omega)
    have O := (((og'.tr (o7.sub (by intro r hr; exact List.mem_cons_of_mem _ hr))).tr
      (o8.into1 sk (p.index_bytes + 4 * p.n + stSize p) (by simp) rfl (by omega) (by omega))).tr
      (o9.into1 sm (p.sig_bytes + M.length) (by simp) rfl (by simp only [add_off]; omega) (by simp only [add_off]; omega))).tr
      (o10.into1 sk (p.index_bytes + 4 * p.n + stSize p) (by simp) rfl (by omega) (by omega))
    refine O.release ?_
    intro r hr
    simp only [List.mem_cons, List.not_mem_nil, or_false] at hr
    rcases hr with rfl | rfl | rfl | rfl
    · simp
    · simp
    · right; show m0.length ≤ m0.length + 4; omega
    · right; show m0.length ≤ m0.length + 5; omega
  · have hl : (skHead (Rfc.toByte (idx + 1) p.index_bytes) ks kf root ps).length = p.index_bytes + 4 * p.n := by
      simp only [skHead, List.length_append, hIl]; omega
    refine holds_release ?_ bsk
    rw [holds_append, hl]
    refine ⟨(((gsk.keep o7 ?_).keep o8 ?_).keep o9 ?_).keep o10 ?_, H10⟩
    all_goals rw [hl]
    · dj d1
    · dj
    · dj d1
    · dj
  · have hl : (Rfc.toByte idx p.index_bytes ++ Rv ++ W.1.flatten ++ w.auth.flatten).length = p.sig_bytes := by
      simp only [List.length_append, toByte_length, hRl, hWl, hal]; omega
    refine holds_release ?_ bsm
    rw [holds_append, hl]
    refine ⟨((H7.keep o8 ?_).keep o9 ?_).keep o10 ?_, ?_⟩
    · rw [hl]; dj d1
    · rw [hl]; dj d1
    · rw [hl]; dj d1
    · rw [add_add, add_add, add_add, show p.index_bytes + (p.n + (p.wots_sig_bytes + p.tree_height * p.n)) = p.sig_bytes by omega] at H9 o9
      exact H9.keep o10 (by dj d1)

end Xmss.Low
