import Verif.Proof.LowFastXmss
import Verif.Props.Fast
import Verif.Proof.FastAny
/-
The pointer-level model of the fast implementation: `xmss_core_sign` and the first model.
-/
namespace Xmss.Low

set_option linter.unusedSimpArgs false

variable {P : Prims} {H : Bytes → Bytes} {p : Params}

theorem lst_wipe {b : Ptr} {w : BdsState} : lst p b w.wipe = lst p b w := by
  unfold lst BdsState.wipe
  congr 1
  apply List.ext_getElem?
  intro i
  simp only [List.getElem?_mapIdx, List.getElem?_map]
  cases w.treehash[i]? <;> rfl

theorem getF_wipe {w : BdsState} (ft : Fit p w) {f : F} {x : Bytes} (h : getF w.wipe f = some x) : x = List.replicate (lenF p f) 0 := by
  have key : ∀ {l : List Bytes} {j : Nat}, (∀ y ∈ l, y.length = p.n) →
      (l.map fun y => List.replicate y.length (0 : UInt8))[j]? = some x → x = List.replicate p.n 0 := by
    intro l j hl h
    rw [List.getElem?_map] at h
    obtain ⟨y, h1, rfl⟩ := Option.map_eq_some_iff.mp h
    rw [hl y (List.mem_of_getElem? h1)]
  cases f with
  | stack j => exact key ft.stack_mem h
  | auth j => exact key ft.auth_mem h
  | keep j => exact key ft.keep_mem h
  | lev j =>
    have h' : ((w.stacklevels.map fun _ => 0)[j]?).map (fun l => [UInt8.ofNat l]) = some x := h
    rw [List.getElem?_map] at h'
    obtain ⟨y, h1, rfl⟩ := Option.map_eq_some_iff.mp h'
    obtain ⟨z, h2, rfl⟩ := Option.map_eq_some_iff.mp h1
    rfl
  | node j =>
    have h' : ((w.treehash.map fun t => { t with node := List.replicate t.node.length 0 })[j]?).map (·.node) = some x := h
    rw [List.getElem?_map] at h'
    obtain ⟨y, h1, rfl⟩ := Option.map_eq_some_iff.mp h'
    obtain ⟨z, h2, rfl⟩ := Option.map_eq_some_iff.mp h1
    show List.replicate z.node.length (0 : UInt8) = _
    rw [(ft.insts_mem z (List.mem_of_getElem? h2)).2.2.2]; rfl

theorem holds_zero_sub {m : Mem} {b : Ptr} {N off len : Nat} (h : Holds m b (List.replicate N 0)) (hl : off + len ≤ N) :
    load m (b + off) len = some (List.replicate len 0) := by
  have e : List.replicate N (0 : UInt8) = List.replicate off 0 ++ (List.replicate len 0 ++ List.replicate (N - off - len) 0) := by
    rw [← List.replicate_add, ← List.replicate_add]; congr 1; omega
  rw [e, holds_append, holds_append, List.length_replicate] at h
  exact h.2.1.load (by simp)

/-- A state whose bytes are all zero, while its scalars survive. -/
theorem sim_wipe {m : Mem} {b : Ptr} {w : BdsState} (ft : Fit p w) (ft' : Fit p w.wipe) (h : Holds m b (List.replicate (stSize p) 0)) :
    Sim p (.upd b) false m (.mem (b + offF p (.lev 0))) w.wipe := by
  have hv : Valid m b (stSize p) := by have := h.1; rw [List.length_replicate] at this; exact this
  refine ⟨ft', ?_, ?_, trivial, rfl⟩
  · intro f x _ hg
    rw [getF_wipe ft hg]
    exact holds_zero_sub h (by have := offF_le (ft'.ok hg); omega)
  · intro r hr
    simp only [Mode.ranges, List.mem_singleton] at hr
    subst hr; exact hv

/-- Every string of the right length is a regular secret key. -/
theorem skHead_any {x : Bytes} (h : x.length = p.index_bytes + 4 * p.n) :
    ∃ ib ks kf root ps, x = skHead ib ks kf root ps ∧ ib.length = p.index_bytes ∧ ks.length = p.n ∧ kf.length = p.n ∧ root.length = p.n ∧
      ps.length = p.n := by
  have cut : ∀ (y : Bytes) (k r : Nat), y.length = k + r → ∃ a b, y = a ++ b ∧ a.length = k ∧ b.length = r := fun y k r hy =>
    ⟨y.take k, y.drop k, (List.take_append_drop k y).symm, by simp; omega, by simp; omega⟩
  obtain ⟨ib, y, rfl, h1, h2⟩ := cut x _ _ h
  obtain ⟨ks, y, rfl, h3, h4⟩ := cut y p.n (3 * p.n) (by omega)
  obtain ⟨kf, y, rfl, h5, h6⟩ := cut y p.n (2 * p.n) (by omega)
  obtain ⟨root, y, rfl, h7, h8⟩ := cut y p.n p.n (by omega)
  exact ⟨ib, ks, kf, root, y, by simp [skHead], h1, h3, h5, h7, h8⟩

theorem bdsStateBytes_st (F0 : Fast0 P H p) {w : BdsState} (sh : Shape p w) : bdsStateBytes p = stSize p := by
  rw [← stateBytes_length sh, stateBytes_len (Shape.fit sh F0.k0)]

theorem Fast0.stSize_lt (F0 : Fast0 P H p) : stSize p < 2 ^ 24 := by
  have h1 := F0.good.th_lt
  have h2 := (fits_of_good F0.good).n_lt
  have a1 : (p.tree_height + 1) * p.n ≤ 31 * p.n := Nat.mul_le_mul_right _ (by omega)
  have a2 : p.tree_height * p.n ≤ 31 * p.n := Nat.mul_le_mul_right _ (by omega)
  have a3 : p.tree_height / 2 * p.n ≤ 31 * p.n := Nat.mul_le_mul_right _ (by omega)
  have a4 : p.tree_height * (7 + p.n) ≤ 31 * (7 + p.n) := Nat.mul_le_mul_right _ (by omega)
  have h3 : (2 : Nat) ^ 24 = 256 * 2 ^ 16 := by norm_num
  have h4 : 65536 ≤ (2 : Nat) ^ 16 := by norm_num
  unfold stSize
  omega

set_option maxHeartbeats 1000000 in
/-- `xmss_core_sign` of the fast implementation does to memory what the first model does to the contents of the buffers. -/
theorem fastXmssSignL_of (F1 : Fast1 p) (F0 : Fast0 P H p) {m0 : Mem} {sk sm msg : Ptr} {l0 : Nat} {key sm0 M : Bytes} {o : FastOut}
    (hkl : key.length = p.sk_bytes) (hsml : p.sig_bytes + M.length ≤ sm0.length) (ho : fastXmssSign H p key sm0 l0 M = some o)
    (hk : Holds m0 sk key) (hM : Holds m0 msg M) (hv : Valid m0 sm (p.sig_bytes + M.length))
    (d1 : Disj sk p.sk_bytes sm (p.sig_bytes + M.length)) (d2 : Disj msg M.length sm (p.sig_bytes + M.length))
    (d3 : Disj msg M.length sk p.sk_bytes) (hml : p.sig_bytes + M.length < 2 ^ 64) :
    ∃ m', fastXmssSignL P p m0 sk sm l0 msg M.length = some (o.ret, o.smlen, m') ∧ Holds m' sk o.sk ∧ o.sk.length = p.sk_bytes ∧
      (o.ret = 0 → OnlyIn m0 m' [(sk, p.sk_bytes), (sm, p.sig_bytes + M.length)] ∧
        ∃ x, x.length = p.sig_bytes + M.length ∧ Holds m' sm x ∧ o.sm = x ++ sm0.drop (p.sig_bytes + M.length)) ∧
      (o.ret ≠ 0 → OnlyIn m0 m' [(sk, p.sk_bytes)] ∧ o.sm = sm0) := by
  have g := F0.good
  have hth := g.th_lt
  have hfh := g.fh_lt
  have hn16 := (fits_of_good g).n_lt
  have hI := F1.ib
  have h1632 : (2 : Nat) ^ 16 * 4 + 8 < 2 ^ 32 := by norm_num
  -- the key
  obtain ⟨states, sigs, eds, ex, elv, erd⟩ := deserialize_any (p := p) key (by rw [hkl, F1.sk])
  have hsl := ex.states_len
  rw [F1.d] at hsl
  obtain ⟨s, rfl⟩ := List.length_eq_one_iff.mp hsl
  have hgl := ex.sigs_len
  rw [F1.d] at hgl
  obtain rfl := List.length_eq_zero_iff.mp hgl
  have sh : Shape p s := ex.states_mem s (by simp)
  have ft := Shape.fit sh F0.k0
  have hst := bdsStateBytes_st F0 sh
  have hskb : p.sk_bytes = p.index_bytes + 4 * p.n + stSize p := by
    rw [F1.sk, fastSkBytes, F1.d, hst]; omega
  have hcut : key = key.take (p.index_bytes + 4 * p.n) ++ stateBytes s := by
    have e : key.drop (p.index_bytes + 4 * p.n) = stateBytes s := by
      rw [F1.d, hst] at erd
      rw [rd_some (by omega)] at erd
      simp only [Option.some.injEq] at erd
      rw [List.take_of_length_le (by simp; omega)] at erd
      rw [erd]; simp [extBytes]
    rw [← e, List.take_append_drop]
  obtain ⟨ib, ks, kf, root, ps, ehead, hib, h1, h2, h3, h4⟩ := skHead_any (p := p) (x := key.take (p.index_bytes + 4 * p.n))
    (by rw [List.length_take]; omega)
  rw [ehead] at hcut
  clear ehead erd
  subst hcut
  have hhl : (skHead ib ks kf root ps).length = p.index_bytes + 4 * p.n := skHead_length hib h1 h2 h3 h4
  obtain ⟨hkh, hks⟩ := (holds_append.mp hk)
  rw [hhl] at hks
  rw [hskb] at d1 d3
  have S := sim_of_holds ft hks
  -- reading the key
  set b : Ptr := sk + (p.index_bytes + 4 * p.n) with hb
  have a1 : arraysOk p = true := by
    unfold arraysOk
    rw [F0.instsL, F1.d]
    have := F1.th
    simp only [ne_eq, decide_eq_true_eq]
    exact ⟨by omega, by decide⟩
  have a2 : deserializeL p m0 sk = some ([lst p b s], b + stSize p) := by
    have := readStatesL_of F0 [s] b (by simpa using sh) (by simpa using hks)
    rw [deserializeL, w32_lt (x := 4 * p.n) (by omega), w32_lt (x := p.index_bytes + 4 * p.n) (by omega), ← hb, F1.d, show usub (w32 (2 * 1)) 1 = 1 by decide]
    have e0 : lstates p b [s] = [lst p b s] := by rw [lstates_cons]; rfl
    rw [e0] at this; simpa using this
  have lib : load m0 sk 4 = some ib := by rw [← hI]; exact (skHead_loads hkh hib h1 h2 h3 h4).1
  have a3 : bytesToUll m0 sk 4 = some (Rfc.toNat ib) := by
    rw [bytesToUll_of (by omega) lib, bytesToUll_eq (by rw [hib, hI]; omega)]
  have a4 : one64 p.full_height = some (2 ^ p.full_height) := if_neg (by omega)
  have hidx : Rfc.toNat ib < 2 ^ 32 := by have := toNat_lt ib; rw [hib, hI] at this; exact this
  have h3264 : (2 : Nat) ^ 32 + 1 < 2 ^ 64 := by norm_num
  set idx := Rfc.toNat ib with hidxd
  -- the body, on a key
  have body : ∀ (m1 : Mem) (ib' ks' kf' root' ps' y : Bytes) (w : BdsState) (o' : FastOut), ib'.length = p.index_bytes → ks'.length = p.n →
      kf'.length = p.n → root'.length = p.n → ps'.length = p.n → y.length = stSize p → Holds m1 sk (skHead ib' ks' kf' root' ps') →
      Shape p w → Sim p (.upd b) false m1 (.mem (b + offF p (.lev 0))) w → Holds m1 msg M → Valid m1 sm (p.sig_bytes + M.length) →
      fastXmssSignBody H p (skHead ib' ks' kf' root' ps' ++ y) sm0 M w [] idx = some o' →
      ∃ m', fastXmssSignBodyL P p m1 sk sm msg M.length (lst p b w) idx = some (o'.smlen, m') ∧ o'.ret = 0 ∧ Holds m' sk o'.sk ∧
        o'.sk.length = p.sk_bytes ∧ OnlyIn m1 m' [(sk, p.sk_bytes), (sm, p.sig_bytes + M.length)] ∧
        ∃ x, x.length = p.sig_bytes + M.length ∧ Holds m' sm x ∧ o'.sm = x ++ sm0.drop (p.sig_bytes + M.length) := by
    intro m1 ib' ks' kf' root' ps' y w o' l1 l2 l3 l4 l5 ly hh shw Sw hMw hvw hbody
    obtain ⟨a, ⟨ha, -⟩, e⟩ := fastXmssSignBody_bind (H := H) (p := p) g F0.hlen F1.d F1.ib (z := []) (y := y)
      (sm0 := sm0.take p.sig_bytes) (old := (sm0.drop p.sig_bytes).take M.length) (post := sm0.drop (p.sig_bytes + M.length))
      (m := M) (s := w) (idx := idx) l1 l2 l3 l4 l5 (by rw [ly, hst]) (by simp; omega) (by simp; omega) shw.auth_flat
    have e := e (fun s' h' => (xmssTraverse_len g F0.hlen shw.len h').bytes)
    rw [← split3, List.append_nil, hbody] at e
    obtain ⟨w', ht, rfl⟩ := Option.map_eq_some_iff.mp e.symm
    rw [ha] at ht
    obtain ⟨m', r1, r2, r3, r4⟩ := fastXmssSignBody_sim F0 F1.d hI (by omega) hh l1 l2 l3 l4 l5 shw Sw hMw hvw d1 d2 d3 hml ht
    have hdgl : ((suiteOf p H).digest ((suiteOf p H).PRF kf' (Rfc.toByte idx 32)) root' idx M).length = p.n := F0.hlen _
    rw [(Xmss.wotsSign_eq (H := H) g (layer := 0) (tree := 0) (ots := idx) ks' ps' hdgl _ ⟨rfl, rfl, rfl, rfl, rfl⟩).1] at r4
    have hRl : ((suiteOf p H).PRF kf' (Rfc.toByte idx 32)).length = p.n := F0.hlen _
    have hwb : (stateBytes w').length = stSize p := by
      rw [← hst]; exact (xmssTraverse_len g F0.hlen shw.len ht).bytes
    have hsig := g.sig_eq'
    rw [F1.d, one_mul, Nat.add_mul] at hsig
    refine ⟨m', r1, rfl, ?_, ?_, ?_, _, ?_, r4, rfl⟩
    · simpa [extBytes] using r3
    · simp only [extBytes, List.map_cons, List.map_nil, List.flatten_cons, List.flatten_nil, List.append_nil]
      rw [List.length_append, skHead_length (toByte_length _ _) l2 l3 l4 l5, hwb, hskb]
    · rw [hskb]; exact r2
    · simp only [List.length_append, toByte_length, hRl, wotsSig_flat_length g F0.hlen, shw.auth_flat]
      omega
  -- the first model
  rw [fastXmssSign, if_neg (by omega), eds] at ho
  have r1 : rd (skHead ib ks kf root ps ++ stateBytes s) 0 4 = some ib := by
    have := (skPhase (p := p) (stateBytes s) hib h1 h2 h3 h4 0).1
    rw [hI] at this; exact this
  simp only [Option.bind_eq_bind, Option.bind_some, List.getElem?_cons_zero, r1] at ho
  rw [bytesToUll_eq (by rw [hib, hI]; omega)] at ho
  simp only [Option.bind_some] at ho
  rw [if_neg (by omega), ← hidxd] at ho
  rw [fastXmssSignL, if_neg (by simp [a1]), a2]
  simp only [Option.bind_eq_bind, Option.bind_some, List.getElem?_cons_zero, a3, a4]
  by_cases hc : 2 ^ p.full_height - 1 ≤ idx
  · rw [if_pos hc] at ho ⊢
    have hskx : skHead ib ks kf root ps ++ stateBytes s = ib ++ (ks ++ kf ++ root ++ ps ++ stateBytes s) := by simp [skHead]
    rw [hskx, wipeKey_eq ib _ hib (l := 4 * p.n + stSize p) (by simp only [List.length_append, stateBytes_len ft]; omega) (by omega),
      Option.bind_some] at ho
    have hvk : Valid m0 sk p.sk_bytes := by have := hk.1; rw [List.length_append, hhl, stateBytes_len ft, ← hskb] at this; exact this
    obtain ⟨m1, t1, t2, t3⟩ := stF (m := m0) (q := sk) (x := List.replicate p.index_bytes 0xFF) (len := p.index_bytes)
      (hvk.sub 0 _ (by omega)) (by simp)
    obtain ⟨m2, t4, t5, t6⟩ := stF (m := m1) (q := sk + p.index_bytes) (x := List.replicate (4 * p.n + stSize p) 0) (len := 4 * p.n + stSize p)
      ((keepValid t2 hvk).sub _ _ (by omega)) (by simp)
    have ow : OnlyIn m0 m2 [(sk, p.sk_bytes)] :=
      (t2.into1 sk p.sk_bytes (by simp) rfl (Nat.le_refl _) (by omega)).tr
        (t5.into1 sk p.sk_bytes (by simp) rfl (by simp only [add_off]; omega) (by simp only [add_off]; omega))
    have hw : Holds m2 sk (List.replicate p.index_bytes 0xFF ++ List.replicate (4 * p.n + stSize p) 0) := by
      rw [holds_append, List.length_replicate]
      refine ⟨t3.keep t5 ?_, t6⟩
      rw [List.length_replicate]; dj
    have hskl : p.sk_bytes < 2 ^ 64 := by
      have := F0.stSize_lt
      omega
    rw [t1, Option.bind_some, w64_wrap (by omega) hskl, show p.sk_bytes - p.index_bytes = 4 * p.n + stSize p by omega, t4, Option.bind_some]
    by_cases hc2 : 2 ^ p.full_height - 1 < idx ∨ p.full_height = 64 ∧ idx = 2 ^ p.full_height - 1
    · rw [if_pos hc2] at ho ⊢
      cases ho
      refine ⟨m2, rfl, hw, ?_, fun h => by simp at h, fun _ => ⟨ow, rfl⟩⟩
      simp only [List.length_append, List.length_replicate]; omega
    · rw [if_neg hc2] at ho ⊢
      rw [wipe_head] at ho hw
      have hz := Key.zero_valid p
      obtain ⟨hw1, hw2⟩ := holds_append.mp hw
      rw [skHead_length (by simp) hz.skSeed hz.skPrf hz.root hz.pubSeed] at hw2
      rw [List.map_nil] at ho
      obtain ⟨m', q1, q2, q3, q4, q5, q6⟩ := body m2 _ _ _ _ _ _ s.wipe o (by simp) hz.skSeed hz.skPrf hz.root hz.pubSeed (by simp) hw1 sh.wipe
        (sim_wipe ft (Shape.fit sh.wipe F0.k0) hw2) (hM.keep ow (by rw [hskb]; dj d3)) (keepValid ow hv) ho
      rw [lst_wipe] at q1
      rw [q1]
      refine ⟨m', by rw [q2]; rfl, q3, q4, fun _ => ⟨?_, q6⟩, fun h => absurd q2 h⟩
      exact (ow.sub (by intro r hr; simp only [List.mem_singleton] at hr; subst hr; simp)).tr q5
  · rw [if_neg hc] at ho ⊢
    obtain ⟨m', q1, q2, q3, q4, q5, q6⟩ := body m0 ib ks kf root ps (stateBytes s) s o hib h1 h2 h3 h4 (stateBytes_len ft) hkh sh S hM hv ho
    rw [q1]
    exact ⟨m', by rw [q2]; rfl, q3, q4, fun _ => ⟨q5, q6⟩, fun h => absurd q2 h⟩

theorem fits_scal {s : BdsState} (sh : Shape p s) : Shape p { s with stackoffset := 0, nextLeaf := 0 } :=
  ⟨sh.stack_len, sh.stack_mem, sh.levels_len, sh.levels_mem, sh.auth_len, sh.auth_mem, sh.keep_len, sh.keep_mem,
    sh.insts_len, sh.insts_mem, sh.retain_len, sh.retain_mem, by simp, by simp⟩

theorem Sim.scal {m : Mem} {b : Ptr} {lv : Levels} {w : BdsState} (S : Sim p (.upd b) false m lv w) :
    Sim p (.upd b) false m lv { w with stackoffset := 0, nextLeaf := 0 } := by
  have f := S.fit
  refine ⟨⟨f.stack_len, f.stack_mem, f.levels_len, f.levels_mem, f.auth_len, f.auth_mem, f.keep_len, f.keep_mem, f.insts_len, f.insts_mem,
    f.retain_nil, by simp⟩, ?_, S.room, S.sep, S.levs⟩
  intro c x hk hg
  refine S.rel c x ⟨hk.1, trivial⟩ ?_
  cases c <;> exact hg

set_option maxHeartbeats 1000000 in
/-- `xmss_core_keypair` of the fast implementation does to memory what the first model does to the contents of the buffers. -/
theorem fastXmssKeypairL_of (F1 : Fast1 p) (F0 : Fast0 P H p) {m0 : Mem} {pk sk : Ptr} {pk0 key sA sB sC pk' sk' : Bytes}
    (hkl : key.length = p.sk_bytes) (hpl : pk0.length = 2 * p.n) (hA : sA.length = p.n) (hB : sB.length = p.n) (hC : sC.length = p.n)
    (ho : fastXmssKeypair H p pk0 key (sA ++ sB ++ sC) = some (pk', sk')) (hk : Holds m0 sk key) (hv : Valid m0 pk (2 * p.n))
    (d1 : Disj pk (2 * p.n) sk p.sk_bytes) :
    ∃ m', fastXmssKeypairL P p m0 pk sk (sA ++ sB ++ sC) = some m' ∧ Holds m' pk pk' ∧ Holds m' sk sk' ∧
      OnlyIn m0 m' [(pk, 2 * p.n), (sk, p.sk_bytes)] := by
  have g := F0.good
  have hn := g.n_pos
  have hth := g.th_lt
  have hn16 := (fits_of_good g).n_lt
  have hI := F1.ib
  have h1632 : (2 : Nat) ^ 16 * 4 + 8 < 2 ^ 32 := by norm_num
  obtain ⟨s0, w', eds', eti, -, efk⟩ := fastXmssKeypair_run F1 F0.hlen pk0 key sA sB sC hpl hkl hA hB hC
  rw [efk, Option.some.injEq, Prod.mk.injEq] at ho
  obtain ⟨rfl, rfl⟩ := ho
  obtain ⟨states, sigs, eds, ex, elv, erd⟩ := deserialize_any (p := p) key (by rw [hkl, F1.sk])
  rw [eds', Option.some.injEq, Prod.mk.injEq] at eds
  obtain ⟨rfl, rfl⟩ := eds
  have sh : Shape p s0 := ex.states_mem s0 (by simp)
  have ft := Shape.fit sh F0.k0
  have hst := bdsStateBytes_st F0 sh
  have hskb : p.sk_bytes = p.index_bytes + 4 * p.n + stSize p := by
    rw [F1.sk, fastSkBytes, F1.d, hst]; omega
  have hdrop : key.drop (p.index_bytes + 4 * p.n) = stateBytes s0 := by
    rw [F1.d, hst] at erd
    rw [rd_some (by omega)] at erd
    simp only [Option.some.injEq] at erd
    rw [List.take_of_length_le (by simp; omega)] at erd
    rw [erd]; simp [extBytes]
  have hks : Holds m0 (sk + (p.index_bytes + 4 * p.n)) (stateBytes s0) := by
    rw [← List.take_append_drop (p.index_bytes + 4 * p.n) key, holds_append, hdrop, List.length_take, Nat.min_eq_left (by omega)] at hk
    exact hk.2
  have hvk : Valid m0 sk p.sk_bytes := by have := hk.1; rw [hkl] at this; exact this
  rw [hskb] at d1 hvk
  have S0 := (sim_of_holds ft hks).scal
  set b : Ptr := sk + (p.index_bytes + 4 * p.n) with hb
  have ob : b.off = sk.off + (p.index_bytes + 4 * p.n) := rfl
  have bb : b.blk = sk.blk := rfl
  set T := (suiteOf p H).root sA sC with hT
  have hTl : T.length = p.n := node_length g F0.hlen _ _ _ _ _ _
  have a1 : arraysOk p = true := by
    unfold arraysOk
    rw [F0.instsL, F1.d]
    have := F1.th
    simp only [ne_eq, decide_eq_true_eq]
    exact ⟨by omega, by decide⟩
  have a2 : deserializeL p m0 sk = some ([lst p b s0], b + stSize p) := by
    have := readStatesL_of F0 [s0] b (by simpa using sh) (by simpa using hks)
    rw [deserializeL, w32_lt (x := 4 * p.n) (by omega), w32_lt (x := p.index_bytes + 4 * p.n) (by omega), ← hb, F1.d,
      show usub (w32 (2 * 1)) 1 = 1 by decide]
    have e0 : lstates p b [s0] = [lst p b s0] := by rw [lstates_cons]; rfl
    rw [e0] at this; simpa using this
  -- index, seeds
  obtain ⟨m1, t1, o1, H1⟩ := stF (m := m0) (q := sk) (x := [0, 0, 0, 0]) (len := 4) (hvk.sub 0 _ (by omega)) rfl
  have v1 := keepValid o1 hvk
  obtain ⟨m2, t2, o2, H2⟩ := stF (m := m1) (q := sk + p.index_bytes) (x := sA ++ sB) (len := 2 * p.n) (v1.sub _ _ (by omega)) (by simp; omega)
  have v2 := keepValid o2 v1
  obtain ⟨m3, t3, o3, H3⟩ := stF (m := m2) (q := sk + p.index_bytes + 3 * p.n) (x := sC) (len := p.n)
    (by rw [add_add]; exact v2.sub _ _ (by omega)) hC
  have v3 := keepValid o3 v2
  have p3 := keepValid o3 (keepValid o2 (keepValid o1 hv))
  obtain ⟨m4, t4, o4, H4⟩ := stF (m := m3) (q := pk + p.n) (x := sC) (len := p.n) (p3.sub _ _ (by omega)) hC
  have e4 : memcpy m3 (pk + p.n) (sk + p.index_bytes + 3 * p.n) p.n = some m4 := by
    rw [memcpy_of (x := sC) (H3.load hC) (Or.inr (by dj d1))]; exact t4
  have v4 := keepValid o4 v3
  have p4 := keepValid o4 p3
  have S4 : Sim p (.upd b) false m4 (.mem (b + offF p (.lev 0))) { s0 with stackoffset := 0, nextLeaf := 0 } :=
    (((S0.keep o1 (by dj)).keep o2 (by dj)).keep o3 (by dj)).keep o4 (by dj d1)
  have A4 : load m4 (sk + p.index_bytes) p.n = some sA := by
    have : load m2 (sk + p.index_bytes) p.n = some sA := (holds_append.mp H2).1.load hA
    exact keepLoad o4 (keepLoad o3 this (by dj)) (by dj d1)
  have C4 : load m4 (sk + p.index_bytes + 3 * p.n) p.n = some sC := keepLoad o4 (H3.load hC) (by dj d1)
  obtain ⟨m5, t5, o5, l5, S5, k5, n5⟩ := treehashInit_sim F0 F1.th (treeCtx_suite g F0.hlen sA sC 0 0) (addr := Addr.zero) ⟨rfl, rfl, rfl⟩
    S4 (fun t ht => (sh.insts_mem t ht).2.1) (by norm_num) A4 C4 (by dj) (by dj) (node := pk) (p4.sub 0 p.n (by omega)) (by dj d1) eti
  have v5 := keepValid o5 v4
  obtain ⟨m6, t6, o6, H6⟩ := stF (m := m5) (q := sk + p.index_bytes + 2 * p.n) (x := T) (len := p.n)
    (by rw [add_add]; exact v5.sub _ _ (by omega)) hTl
  have e6 : memcpy m5 (sk + p.index_bytes + 2 * p.n) pk p.n = some m6 := by
    rw [memcpy_of l5 (Or.inr (by dj d1))]; exact t6
  have S6 : Sim p (.upd b) false m6 (.mem (b + offF p (.lev 0))) w' := S5.keep o6 (by dj)
  have v6 : Valid m6 b (stSize p) := S6.room (b, stSize p) (by simp [Mode.ranges])
  have h3264 : (2 : Nat) ^ 32 < 2 ^ 64 := by norm_num
  obtain ⟨m7, e7, o7, H7⟩ := writeStatesL_of F0 [w'] b m6 (by simpa using v6)
    (by
      intro s hs
      simp only [List.mem_singleton] at hs
      subst hs
      exact ⟨fun t ht => lt_trans (k5 t ht) h3264, by rw [n5]; norm_num⟩)
    (by
      intro i s hi
      cases i with
      | zero =>
        simp only [List.getElem?_cons_zero, Option.some.injEq] at hi
        subst hi
        refine ⟨.mem (b + offF p (.lev 0)), ?_⟩
        rw [Nat.zero_mul]
        exact S6
      | succ i => simp at hi)
  simp only [List.length_singleton, Nat.one_mul] at o7
  simp only [List.map_cons, List.map_nil, List.flatten_cons, List.flatten_nil, List.append_nil] at H7
  have e8 : serializeL p m6 sk [lst p b w'] = some m7 := by
    rw [serializeL, w32_lt (x := 4 * p.n) (by omega), w32_lt (by omega), ← hb, ← e7, lstates_cons]
    rfl
  refine ⟨m7, ?_, ?_, ?_, ?_⟩
  · rw [fastXmssKeypairL, if_neg (by simp [a1]), a2]
    simp only [Option.bind_eq_bind, Option.bind_some, List.getElem?_cons_zero]
    have q1 : (sA ++ sB ++ sC).take (2 * p.n) = sA ++ sB := List.take_left' (by simp; omega)
    have q2 : (sA ++ sB ++ sC).drop (2 * p.n) = sC := List.drop_left' (by simp; omega)
    rw [t1, Option.bind_some, q1, q2, t2, Option.bind_some, w32_lt (x := 3 * p.n) (by omega), w32_lt (x := 2 * p.n) (by omega), t3,
      Option.bind_some, e4, Option.bind_some]
    have e5 : ({ lst p b s0 with stackoffset := 0, nextLeaf := 0 } : LState) = lst p b { s0 with stackoffset := 0, nextLeaf := 0 } := rfl
    rw [e5, t5, Option.bind_some]
    dsimp only
    rw [e6, Option.bind_some, e8]
  · rw [holds_append, hTl]
    refine ⟨((Holds.of_load l5).keep o6 ?_).keep o7 ?_, ((H4.keep o5 ?_).keep o6 ?_).keep o7 ?_⟩
    all_goals (first | rw [hTl] | rw [hC])
    all_goals dj d1
  · have e9 : (Key.mk sA sB T sC).fast p 0 [w'] [] = (Rfc.toByte 0 p.index_bytes ++ (sA ++ sB) ++ T ++ sC) ++ stateBytes w' := by
      simp [Key.fast, skHead, extBytes]
    have hz : Rfc.toByte 0 p.index_bytes = [0, 0, 0, 0] := by rw [hI]; rfl
    have hl4 : ([0, 0, 0, 0] : Bytes).length = p.index_bytes := by rw [hI]; rfl
    have hAB : (sA ++ sB).length = 2 * p.n := by rw [List.length_append]; omega
    rw [e9, hz]
    generalize sA ++ sB = AB at *
    simp only [holds_append, List.length_append, hl4, hTl, hC, hAB]
    have big : ∀ {q : Ptr} {x : Bytes} {len : Nat}, x.length = len → Holds m4 q x → Disj q len b (stSize p) → Disj q len pk p.n →
        Disj q len (sk + p.index_bytes + 2 * p.n) p.n → Holds m7 q x := by
      intro q x len hl h c1 c2 c3
      refine ((h.keep o5 ?_).keep o6 ?_).keep o7 ?_
      all_goals rw [hl]
      · (dj c1 c2)
      · (dj c3)
      · (dj c1)
    refine ⟨⟨⟨⟨?_, ?_⟩, ?_⟩, ?_⟩, ?_⟩
    · refine big (len := 4) rfl (((H1.keep o2 ?_).keep o3 ?_).keep o4 ?_) ?_ ?_ ?_
      · show ∀ r ∈ _, Apart sk 4 _ _; dj
      · show ∀ r ∈ _, Apart sk 4 _ _; dj
      · show ∀ r ∈ _, Apart sk 4 _ _; dj d1
      · dj
      · dj d1
      · dj
    · refine big hAB ((H2.keep o3 ?_).keep o4 ?_) ?_ ?_ ?_
      · rw [hAB]; dj
      · rw [hAB]; dj d1
      · dj
      · dj d1
      · dj
    · rw [← add_add]
      refine H6.keep o7 ?_
      rw [hTl]; dj
    · rw [show p.index_bytes + 2 * p.n + p.n = p.index_bytes + 3 * p.n by omega, ← add_add]
      refine big hC (H3.keep o4 ?_) ?_ ?_ ?_
      · rw [hC]; dj d1
      · dj
      · dj d1
      · dj
    · rw [show p.index_bytes + 2 * p.n + p.n + p.n = p.index_bytes + 4 * p.n by omega]
      exact H7
  · have into : ∀ {a c : Mem} {q : Ptr} {len : Nat}, OnlyIn a c [(q, len)] → q.blk = sk.blk → sk.off ≤ q.off →
        q.off + len ≤ sk.off + p.sk_bytes → OnlyIn a c [(pk, 2 * p.n), (sk, p.sk_bytes)] :=
      fun h x1 x2 x3 => h.into1 sk p.sk_bytes (by simp) x1 x2 x3
    have o5' : OnlyIn m4 m5 [(pk, 2 * p.n), (sk, p.sk_bytes)] := by
      refine o5.into ?_
      intro r hr
      simp only [List.mem_cons, List.not_mem_nil, or_false] at hr
      rcases hr with rfl | rfl
      · exact ⟨(sk, p.sk_bytes), by simp, rfl, by simp only; omega, by simp only; omega⟩
      · exact ⟨(pk, 2 * p.n), by simp, rfl, Nat.le_refl _, by simp only; omega⟩
    exact ((((((into o1 rfl (Nat.le_refl _) (by omega)).tr (into o2 rfl (by simp only [add_off]; omega) (by simp only [add_off]; omega))).tr
      (into o3 rfl (by simp only [add_off]; omega) (by simp only [add_off]; omega))).tr
      (o4.into1 pk (2 * p.n) (by simp) rfl (by simp only [add_off]; omega) (by simp only [add_off]; omega))).tr o5').tr
      (into o6 rfl (by simp only [add_off]; omega) (by simp only [add_off]; omega))).tr (into o7 bb (by omega) (by omega))

end Xmss.Low
