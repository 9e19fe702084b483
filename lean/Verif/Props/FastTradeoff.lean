import Verif.Props.Fast
import Verif.Proof.FastGen
import Verif.Props.Toy
/-
C36: a trade-off parameter for which the fast implementation is wrong.
-/
namespace Xmss

section
variable {p : Params} {H : Bytes → Bytes}

/-- State of the traversal with one instance and no updates, before leaf `φ`. -/
private def Stuck (p : Params) (N : Nat → Nat → Bytes) (φ : Nat) (c : Nat) (s : BdsState) : Prop :=
  ∃ pr seg, TreeInv p N [] φ pr seg s ∧ pr 0 = c ∧ s.treehash[0]?.map (·.node) = some (N 0 3)

private theorem noUpdates {skSeed pubSeed : Bytes} {a : Addr} (hi : p.insts = 1) (s : BdsState) :
    bdsTreehashUpdate H p s (p.insts / 2) skSeed pubSeed a = some (s, 0) := by
  rw [hi]; rfl

private theorem map_head {l l' : List TreehashInst} (h : l'.map (·.node) = l.map (·.node)) :
    l'[0]?.map (·.node) = l[0]?.map (·.node) := by
  rw [← List.getElem?_map, ← List.getElem?_map, h]

private theorem Stuck.step {skSeed pubSeed : Bytes} {N : Nat → Nat → Bytes} (ctx : TreeCtx H p skSeed pubSeed 0 0 N)
    (hH : ∀ x, (H x).length = p.n) (hth : p.tree_height < 31) (hK : p.bds_k ≤ p.tree_height) (hi : p.insts = 1)
    {φ c : Nat} {s : BdsState} (h : Stuck p N φ c s) (hφ : φ + 1 < 2 ^ p.tree_height) (hd : 2 ∣ φ + 1 → c = 1)
    {a : Addr} (ha : IsSub a 0 0) :
    ∃ s1, bdsRound H p s φ skSeed pubSeed a = some s1 ∧
      bdsTreehashUpdate H p s1 (p.insts / 2) skSeed pubSeed a = some (s1, 0) ∧
      Stuck p N (φ + 1) (if 2 ∣ φ + 1 ∧ φ + 1 + 3 < 2 ^ p.tree_height then 0 else c) s1 := by
  obtain ⟨pr, seg, ti, h1, h2⟩ := h
  obtain ⟨s1, e1, t1, -, -⟩ := bdsRound_eq ctx hth ha ti hφ (by
    intro i hi' hdv
    have : i = 0 := by omega
    subst this
    rw [h1, hd (by simpa using hdv)]; rfl)
  obtain ⟨s1', e1', -, -, -, -, -, hn, -⟩ := bdsRound_safe ctx hH hth hK ha ti.work.shape hφ
  rw [e1] at e1'
  cases e1'
  refine ⟨s1, e1, noUpdates hi s1, _, _, t1, ?_, by rw [map_head hn, h2]⟩
  simp only [Sched.restart, Sched.starts, hi, h1]
  simp

private theorem sh_auth_flat_head {s : BdsState} {x : Bytes} (h : s.auth[0]? = some x) :
    ∃ rest, s.auth.flatten = x ++ rest := by
  cases hs : s.auth with
  | nil => rw [hs] at h; cases h
  | cons y l =>
    rw [hs, List.getElem?_cons_zero] at h
    cases h
    exact ⟨l.flatten, by rw [List.flatten_cons]⟩

/-- **C36 (refuted).**  For every tree height `h ≥ 3` the trade-off parameter `bds_k = h - 1` gives a wrong signature: for
every hash function, all seeds, buffers and messages, in the fifth signature (index 4) the first node of the authentication
path is leaf 3, whereas RFC 8391 (and the simple implementation) has leaf 5 there. -/
theorem C36_wrong_auth_node (f : Fast1 p) (hk : p.bds_k + 1 = p.tree_height) (hH : ∀ x, (H x).length = p.n)
    (pk sk sA sB sC : Bytes) (hpk : pk.length = 2 * p.n) (hsk : sk.length = p.sk_bytes)
    (hA : sA.length = p.n) (hB : sB.length = p.n) (hC : sC.length = p.n) (cs : List Call) (hcs : cs.length = 5)
    (hsz : ∀ c ∈ cs, p.sig_bytes + c.msg.length ≤ c.sm.length) :
    ∃ sk', fastXmssKeypair H p pk sk (sA ++ sB ++ sC) = some ((suiteOf p H).root sA sC ++ sC, sk') ∧
      ∃ os o, coreSignAllFast H p sk' cs = some os ∧ os[4]? = some o ∧ o.ret = 0 ∧
        (o.sm.drop (p.index_bytes + p.n + p.wots_sig_bytes)).take p.n = (suiteOf p H).leaf sA sC 0 0 3 ∧
        ∀ M, (((suiteOf p H).sign sA sB ((suiteOf p H).root sA sC) sC 4 M).drop
          (p.index_bytes + p.n + p.wots_sig_bytes)).take p.n = (suiteOf p H).leaf sA sC 0 0 5 := by
  have g := f.good
  have hth := g.th_lt
  have h3 := f.th
  have hK := f.k
  have hi : p.insts = 1 := by unfold Params.insts; omega
  have hfull := f.full
  have h8 : 2 ^ 3 ≤ 2 ^ p.tree_height := Nat.pow_le_pow_right (by omega) h3
  obtain ⟨s0, r, e0⟩ := fastXmssKeypair_eq f hH pk sk sA sB sC hpk hsk hA hB hC
  obtain ⟨k, hkd⟩ : ∃ k : Key, k = ⟨sA, sB, (suiteOf p H).root sA sC, sC⟩ := ⟨_, rfl⟩
  have hv : k.Valid p := by rw [hkd]; exact ⟨hA, hB, node_length g hH _ _ _ _ _ _, hC⟩
  have ctx := treeCtx_suite g hH sA sC 0 0
  set N := (suiteOf p H).node sA sC 0 0 with hN
  -- the five calls
  obtain ⟨c0, c1, c2, c3, c4, rfl⟩ : ∃ c0 c1 c2 c3 c4, cs = [c0, c1, c2, c3, c4] := by
    match cs, hcs with
    | [a, b, c, d, e], _ => exact ⟨a, b, c, d, e, rfl⟩
  simp only [List.mem_cons, List.not_mem_nil, or_false, forall_eq_or_imp, forall_eq] at hsz
  obtain ⟨z0, z1, z2, z3, z4⟩ := hsz
  have st0 : Stuck p N 0 1 s0 := by
    obtain ⟨pr, seg, ti, hin, hac⟩ := r
    have hp0 : pr 0 = 2 ^ 0 := by
      by_contra hne
      have := hac 0 (by omega) (lt_of_le_of_ne (ti.work.nested.le 0 (by omega)) hne)
      omega
    refine ⟨pr, seg, ti, hp0, ?_⟩
    obtain ⟨t, ht, io⟩ := ti.work.inst 0 (by omega)
    rw [ht, Option.map_some, (io.full hp0).2.2 (by simp [target]; omega)]
    rfl
  have hsh : ∀ φ c s', Stuck p N φ c s' → Shape p s' := fun φ c s' h => by obtain ⟨_, _, ti, _⟩ := h; exact ti.work.shape
  have hwl : ∀ φ c s', Stuck p N φ c s' → Stuck p N φ c { s' with leaves := 0 } := fun φ c s' h => by
    obtain ⟨pr, seg, ti, h1, h2⟩ := h; exact ⟨pr, seg, ti.with_leaves 0, h1, h2⟩
  have one : ∀ φ c (cl : Call) (s : BdsState), Stuck p N φ c s → φ < 3 → (2 ∣ φ + 1 → c = 1) →
      p.sig_bytes + cl.msg.length ≤ cl.sm.length → ∃ s' o,
        Stuck p N (φ + 1) (if 2 ∣ φ + 1 ∧ φ + 1 + 3 < 2 ^ p.tree_height then 0 else c) s' ∧
        fastXmssSign H p (k.fast p φ [s] []) cl.sm cl.smlen0 cl.msg = some o ∧ o.sk = k.fast p (φ + 1) [s'] [] := by
    intro φ c cl s st h hc z
    obtain ⟨s', n, q, e⟩ := fastXmssSign_gen f hH hv (idx := φ) (by rw [hfull]; omega) (hsh _ _ _ st) (Stuck p N (φ + 1) _)
      (fun s' h => hsh _ _ _ h) (by
        intro a ha
        have ctx' : TreeCtx H p k.skSeed k.pubSeed 0 0 N := by rw [hkd]; exact ctx
        obtain ⟨s1, e1, e2, st1⟩ := (hwl _ _ _ st).step ctx' hH hth hK hi (by omega) hc ha
        exact ⟨s1, s1, 0, e1, e2, st1⟩) cl.sm cl.smlen0 cl.msg z
    exact ⟨s', _, q, e, rfl⟩
  obtain ⟨s1, o0, st1, e1, k1⟩ := one 0 1 c0 s0 st0 (by omega) (by omega) z0
  rw [if_neg (by omega)] at st1
  obtain ⟨s2, o1, st2, e2, k2⟩ := one 1 1 c1 s1 st1 (by omega) (by omega) z1
  rw [if_pos (by omega)] at st2
  obtain ⟨s3, o2, st3, e3, k3⟩ := one 2 0 c2 s2 st2 (by omega) (by omega) z2
  rw [if_neg (by omega)] at st3
  have ctx' : TreeCtx H p k.skSeed k.pubSeed 0 0 N := by rw [hkd]; exact ctx
  obtain ⟨s4, n4, q4, e4⟩ := fastXmssSign_gen f hH hv (idx := 3) (by rw [hfull]; omega) (hsh _ _ _ st3)
    (fun s' => Shape p s' ∧ s'.auth[0]? = some (N 0 3)) (fun s' h => h.1) (by
      intro a ha
      obtain ⟨s', e', sh', -, -, -, -, -, h', -⟩ := bdsRound_safe ctx' hH hth hK ha ((hsh _ _ _ st3).with_leaves 0)
        (φ := 3) (by omega)
      obtain ⟨_, _, _, _, hnode⟩ := st3
      exact ⟨s', s', 0, e', noUpdates hi s', sh', by rw [h' rfl (by omega)]; exact hnode⟩) c3.sm c3.smlen0 c3.msg z3
  obtain ⟨s5, n5, q5, e5⟩ := fastXmssSign_gen f hH hv (idx := 4) (by rw [hfull]; omega) q4.1
    (fun s' => Shape p s') (fun s' h => h) (by
      intro a ha
      obtain ⟨s', e', sh', -⟩ := bdsRound_safe ctx' hH hth hK ha (q4.1.with_leaves 0) (φ := 4) (by omega)
      exact ⟨s', s', 0, e', noUpdates hi s', sh'⟩) c4.sm c4.smlen0 c4.msg z4
  have e0' : fastXmssKeypair H p pk sk (sA ++ sB ++ sC) = some ((suiteOf p H).root sA sC ++ sC, k.fast p 0 [s0] []) := by
    rw [e0, hkd]
  obtain ⟨o3, e4', k4⟩ : ∃ o, fastXmssSign H p (k.fast p 3 [s3] []) c3.sm c3.smlen0 c3.msg = some o ∧
      o.sk = k.fast p 4 [s4] [] := ⟨_, e4, rfl⟩
  obtain ⟨o4, e5', k5, k6⟩ : ∃ o, fastXmssSign H p (k.fast p 4 [s4] []) c4.sm c4.smlen0 c4.msg = some o ∧ o.ret = 0 ∧ o.sm = _ :=
    ⟨_, e5, rfl, rfl⟩
  refine ⟨_, e0', [o0, o1, o2, o3, o4], o4, ?_, rfl, k5, ?_, ?_⟩
  rotate_left
  · -- the node in the output
    rw [k6]
    have hl := sh_auth_flat_head q4.2
    obtain ⟨rest, hrest⟩ := hl
    rw [hrest]
    have l1 : (Rfc.toByte 4 p.index_bytes).length = p.index_bytes := toByte_length _ _
    have l2 : ((suiteOf p H).PRF k.skPrf (Rfc.toByte 4 32)).length = p.n := hH _
    have l3 := wotsSig_flat_length g hH k.skSeed k.pubSeed ((suiteOf p H).digest
      ((suiteOf p H).PRF k.skPrf (Rfc.toByte 4 32)) k.root 4 c4.msg) 0 0 4
    rw [← g.sig_wots] at l3
    rw [show Rfc.toByte 4 p.index_bytes ++ (suiteOf p H).PRF k.skPrf (Rfc.toByte 4 32) ++
      ((suiteOf p H).wotsSig k.skSeed k.pubSeed ((suiteOf p H).digest
      ((suiteOf p H).PRF k.skPrf (Rfc.toByte 4 32)) k.root 4 c4.msg) 0 0 4).flatten ++ (N 0 3 ++ rest) ++ c4.msg ++
        c4.sm.drop (p.sig_bytes + c4.msg.length) =
      (Rfc.toByte 4 p.index_bytes ++ (suiteOf p H).PRF k.skPrf (Rfc.toByte 4 32) ++
      ((suiteOf p H).wotsSig k.skSeed k.pubSeed ((suiteOf p H).digest
      ((suiteOf p H).PRF k.skPrf (Rfc.toByte 4 32)) k.root 4 c4.msg) 0 0 4).flatten) ++ (N 0 3 ++ (rest ++ c4.msg ++
        c4.sm.drop (p.sig_bytes + c4.msg.length))) by simp only [List.append_assoc]]
    rw [List.drop_left' (by simp only [List.length_append, l1, l2, l3]), List.take_left' (ctx.len 0 3)]
    rfl
  · intro M
    have l1 : (Rfc.toByte 4 p.index_bytes).length = p.index_bytes := toByte_length _ _
    have l2 : ((suiteOf p H).PRF sB (Rfc.toByte 4 32)).length = p.n := hH _
    have l3 := wotsSig_flat_length g hH sA sC ((suiteOf p H).digest
      ((suiteOf p H).PRF sB (Rfc.toByte 4 32)) ((suiteOf p H).root sA sC) 4 M) 0 0 4
    rw [← g.sig_wots] at l3
    have := sign_one (H := H) g f.d (k := ⟨sA, sB, (suiteOf p H).root sA sC, sC⟩) (idx := 4) (m := M) (by omega)
    simp only at this
    rw [← this, List.drop_left' (by simp only [List.length_append, l1, l2, l3])]
    have hau : ∃ rest, (suiteOf p H).authPath sA sC 0 0 4 = (suiteOf p H).leaf sA sC 0 0 5 :: rest := by
      obtain ⟨h', hh'⟩ : ∃ h', p.tree_height = h' + 1 := ⟨p.tree_height - 1, by omega⟩
      rw [Rfc.Suite.authPath, g.hp_eq, hh', List.range_succ_eq_map, List.map_cons]
      exact ⟨_, rfl⟩
    obtain ⟨rest, hr⟩ := hau
    rw [hr, List.flatten_cons, List.take_left' (by exact ctx.len 0 5)]
  · simp only [coreSignAllFast, e1, k1, e2, k2, e3, k3, e4', k4, e5', Option.bind_eq_bind, Option.bind_some]

end

/-! ### A concrete instance -/
namespace Toy2

/-- Toy replacement for SHA-256: the first message block in the roles F and H (32nd byte 0 or 1), the address in the role
PRF_keygen (4), the key otherwise. -/
def hash (x : Bytes) : Bytes :=
  ((if (x.getD 31 0).toNat ≤ 1 then x.drop 64 else if (x.getD 31 0).toNat = 4 then x.drop 96 else x.drop 32).take 32 ++
    List.replicate 32 0).take 32

theorem hash_length (x : Bytes) : (hash x).length = 32 := by
  simp only [hash, List.length_take, List.length_append, List.length_replicate]
  omega

/-- SHA-256 parameters with one tree of height 3 and `bds_k = 2`. -/
abbrev p : Params := params16 fastSkBytes .sha2 32 32 3 1 2
abbrev S : Rfc.Suite := suiteOf p hash
abbrev zero : Bytes := List.replicate 32 0

theorem good : p.Good where
  n_pos := by decide
  w_eq := rfl
  logw_mem := Or.inr rfl
  len1_mul := by decide
  csum_fits := by decide
  len2_pos := by decide
  len2_mod := by decide
  len_eq := rfl
  sig_wots := rfl
  d_pos := by decide
  height := by decide
  th_pos := by decide
  th_lt := by decide
  fh_lt := by decide
  idx_le := by decide
  idx_fits := by decide +kernel
  sig_eq := rfl
  sig_lt := by decide +kernel
  pad_le := by decide
  pk_eq := rfl
  rfc_len1 := by decide +kernel
  rfc_len2 := by decide +kernel

theorem fast1 : Fast1 p := ⟨good, rfl, rfl, by decide, by decide, rfl⟩

private theorem role (r : Nat) (hr : r < 256) (rest : Bytes) : ((Rfc.toByte r 32 ++ rest).getD 31 0).toNat = r := by
  rw [List.getD_append _ _ _ _ (by simp [toByte_length])]
  simp [Rfc.toByte, Nat.mod_eq_of_lt hr]

theorem hash_key (key rest : Bytes) (hk : key.length = 32) : hash (Rfc.toByte 3 32 ++ key ++ rest) = key := by
  rw [List.append_assoc, hash, role 3 (by omega), if_neg (by omega), if_neg (by omega), List.drop_left' (toByte_length _ _),
    List.take_left' hk, List.take_left' hk]

theorem hash_adrs (key q a : Bytes) (hk : key.length = 32) (hq : q.length = 32) (ha : a.length = 32) :
    hash (Rfc.toByte 4 32 ++ key ++ (q ++ a)) = a := by
  rw [List.append_assoc, hash, role 4 (by omega), if_neg (by omega), if_pos rfl, ← List.append_assoc, ← List.append_assoc,
    List.drop_left' (by simp [toByte_length, hk, hq]), ← List.append_nil a, List.take_left' ha]
  rw [List.append_nil, List.take_left' ha]

theorem hash_msg (r : Nat) (hr : r ≤ 1) (key a rest : Bytes) (hk : key.length = 32) (ha : a.length = 32) :
    hash (Rfc.toByte r 32 ++ key ++ (a ++ rest)) = a := by
  rw [List.append_assoc, hash, role r (by omega), if_pos hr, ← List.append_assoc, List.drop_left' (by simp [toByte_length, hk]),
    List.take_left' ha, List.take_left' ha]

theorem prf_eq (key m : Bytes) (hk : key.length = 32) : S.PRF key m = key := hash_key key m hk

theorem randHash_eq (adrs : Nat → Bytes) (l r : Bytes) (hl : l.length = 32) : S.randHash zero adrs l r = l := by
  rw [Rfc.Suite.randHash, prf_eq zero _ (by simp), prf_eq zero _ (by simp), prf_eq zero _ (by simp), Toy.xor_zero l hl]
  exact hash_msg 1 (by omega) zero l _ (by simp) hl

theorem chain_eq (adrs : Nat → Nat → Bytes) (x : Bytes) (hx : x.length = 32) (i s : Nat) : S.chain zero adrs x i s = x := by
  induction s with
  | zero => rfl
  | succ s ih =>
    rw [Rfc.Suite.chain, ih, Rfc.Suite.chainStep, prf_eq zero _ (by simp), prf_eq zero _ (by simp), Toy.xor_zero x hx]
    have := hash_msg 0 (by omega) zero x [] (by simp) hx
    rw [List.append_nil] at this
    exact this

theorem ltreeRows_head (l t i : Nat) (x : Bytes) (hx : x.length = 32) : ∀ k h (rest : List Bytes),
    (Rfc.Suite.ltreeRows (fun height j => S.randHash zero (Rfc.Suite.ltreeAdrs l t i height j)) k h (x :: rest)).getD 0 [] = x := by
  intro k
  induction k with
  | zero => intro h rest; rfl
  | succ k ih =>
    intro h rest
    rw [Rfc.Suite.ltreeRows]
    split
    · rfl
    · cases rest with
      | nil => exact ih _ _
      | cons y rest => rw [Rfc.Suite.ltreeRow, randHash_eq _ _ _ hx]; exact ih _ _

theorem leaf_eq (x : Bytes) (hx : x.length = 32) (i : Nat) :
    S.leaf x zero 0 0 i = Rfc.Suite.otsAdrs 0 0 i 0 0 0 := by
  have e : S.len = 66 + 1 := by decide
  have ha : (Rfc.Suite.otsAdrs 0 0 i 0 0 0).length = 32 := by simp [Rfc.Suite.otsAdrs, toByte_length]
  have hpk : ∃ rest, S.wotsPk x zero 0 0 i = Rfc.Suite.otsAdrs 0 0 i 0 0 0 :: rest := by
    rw [Rfc.Suite.wotsPk, e, List.range_succ_eq_map, List.map_cons]
    have hsk : S.wotsSk x zero 0 0 i 0 = Rfc.Suite.otsAdrs 0 0 i 0 0 0 := hash_adrs x zero _ hx (by simp) ha
    rw [hsk, chain_eq _ _ ha]
    exact ⟨_, rfl⟩
  obtain ⟨rest, hpk⟩ := hpk
  rw [Rfc.Suite.leaf, Rfc.Suite.ltree, hpk]
  exact ltreeRows_head 0 0 i _ ha _ _ _

end Toy2

/-- **C36 (refuted), outright.**  There are a parameter set with `bds_k ≤ tree_height`, a hash function and a seed for which, whatever the
buffers and messages, the fifth signature differs from the one RFC 8391 (hence the simple implementation) defines. -/
theorem C36_fails : ∃ (p : Params) (H : Bytes → Bytes), Fast1 p ∧ (∀ x, (H x).length = p.n) ∧
    ∃ sA sB sC : Bytes, sA.length = p.n ∧ sB.length = p.n ∧ sC.length = p.n ∧
      ∀ (pk sk : Bytes) (cs : List Call), pk.length = 2 * p.n → sk.length = p.sk_bytes → cs.length = 5 →
        (∀ c ∈ cs, p.sig_bytes + c.msg.length ≤ c.sm.length) →
        ∃ pk' sk' os o c, fastXmssKeypair H p pk sk (sA ++ sB ++ sC) = some (pk', sk') ∧
          coreSignAllFast H p sk' cs = some os ∧ os[4]? = some o ∧ cs[4]? = some c ∧ o.ret = 0 ∧
          o.sm.take p.sig_bytes ≠ (suiteOf p H).sign sA sB ((suiteOf p H).root sA sC) sC 4 c.msg := by
  refine ⟨Toy2.p, Toy2.hash, Toy2.fast1, Toy2.hash_length, Toy2.zero, Toy2.zero, Toy2.zero, rfl, rfl, rfl, ?_⟩
  intro pk sk cs hpk hsk hcs hsz
  obtain ⟨sk', e1, os, o, e2, e3, e4, e5, e6⟩ := C36_wrong_auth_node Toy2.fast1 rfl Toy2.hash_length pk sk Toy2.zero Toy2.zero Toy2.zero
    hpk hsk rfl rfl rfl cs hcs hsz
  obtain ⟨c, hc⟩ : ∃ c, cs[4]? = some c := ⟨cs[4], List.getElem?_eq_getElem (by omega)⟩
  refine ⟨_, sk', os, o, c, e1, e2, e3, hc, e4, ?_⟩
  intro h
  have e7 := e6 c.msg
  rw [← h, List.drop_take, List.take_take, Nat.min_eq_left (by decide +kernel), e5, Toy2.leaf_eq _ (by simp),
    Toy2.leaf_eq _ (by simp)] at e7
  revert e7
  decide +kernel

end Xmss
