import Verif.Props.FastDamaged
import Verif.Props.UiFast
/-
C60: signing with arbitrary bytes in the secret key.  The simple implementation is safe for all of them (C20).  The fast
one is not: the fill level of the node stack is taken from the secret key without a check.
-/
namespace Xmss

variable {P : Prims} {f : Family} {oid : Nat} {p : Params} {H : Bytes → Bytes}

/-- A fill level of the node stack with which the next node is written behind the whole secret key: `state->stack +
state->stackoffset*params->n`, where the product is computed in 32 bit arithmetic. -/
def wildOffset : Nat := 2 ^ 25

/-- A state with the fill level `wildOffset`, whose first instance still has to compute its node. -/
def wildState (p : Params) : BdsState :=
  { junkState p with
    stackoffset := wildOffset
    treehash := (junkState p).treehash.set 0 { h := 1, nextIdx := 0, stackusage := 0, completed := 0, node := List.replicate p.n 0 } }

theorem wildState_shape (p : Params) : Shape p (wildState p) :=
  { junkState_shape p with
    insts_len := by simp [wildState, junkState]
    insts_mem := by
      intro x hx
      rcases List.mem_or_eq_of_mem_set hx with h | h
      · exact (junkState_shape p).insts_mem x h
      · subst h; simp
    off_lt := by simp [wildState, wildOffset] }

/-- If the first instance is the only one with work left, it is picked. -/
theorem pickLoop_first {s : BdsState} (h : ∀ i, 1 ≤ i → i < p.insts → ∃ t, s.treehash[i]? = some t ∧ t.completed ≠ 0) :
    ∀ k i, 1 ≤ i → i + k = p.insts → pickLoop p s k i 0 0 = some 0 := by
  intro k
  induction k with
  | zero => intro i _ _; rfl
  | succ k ih =>
    intro i h1 hi
    obtain ⟨t, ht, hc⟩ := h i h1 (by omega)
    rw [pickLoop, lowOf, ht]
    simp only [Option.bind_eq_bind, Option.bind_some, if_pos hc, Nat.not_lt_zero, if_false]
    exact ih (i + 1) (by omega) (by omega)

theorem setA_none {α : Type} {l : List α} {i : Nat} {x : α} (h : l.length ≤ i) : setA l i x = none := by
  simp [setA]; omega

/-- The first instance pushes its leaf with a wild stack fill level. -/
theorem bdsTreehashUpdate_wild {s : BdsState} (hpos : 0 < p.insts) (hth : 0 < p.tree_height)
    (h0 : ∃ t, s.treehash[0]? = some t ∧ t.completed = 0 ∧ t.stackusage = 0 ∧ t.h = 1)
    (h : ∀ i, 1 ≤ i → i < p.insts → ∃ t, s.treehash[i]? = some t ∧ t.completed ≠ 0) (hs : s.stack.length ≤ s.stackoffset)
    {skSeed pubSeed : Bytes} {a : Addr} {u : Nat} (hu : 0 < u) : bdsTreehashUpdate H p s u skSeed pubSeed a = none := by
  obtain ⟨t, ht, hc, hsu, hh⟩ := h0
  obtain ⟨v, rfl⟩ : ∃ v, u = v + 1 := ⟨u - 1, by omega⟩
  have hpick : pickLevel p s = some 0 := by
    unfold pickLevel
    obtain ⟨m, hm⟩ : ∃ m, p.insts = m + 1 := ⟨p.insts - 1, by omega⟩
    rw [hm, pickLoop, lowOf, ht]
    simp only [Option.bind_eq_bind, Option.bind_some, hc, hsu, ne_eq, not_true_eq_false, if_false, if_true, hth]
    exact pickLoop_first h m 1 (by omega) (by omega)
  have hup : treehashUpdate H p s 0 skSeed pubSeed a = none := by
    rw [treehashUpdate, ht]
    simp only [Option.bind_eq_bind, Option.bind_some, hsu, updateMerge, hh]
    rw [if_neg (by omega), setA_none hs]
    rfl
  rw [bdsTreehashUpdate, bdsUpdateLoop, hpick]
  simp only [Option.bind_eq_bind, Option.bind_some]
  rw [if_neg (by omega), hup]
  rfl

/-- The write with the fill level `wildOffset` is behind the end of the secret key, for every parameter set. -/
theorem wild_far {f : Family} (hp : f.parseFast oid = some p) : 4 + p.sk_bytes ≤ (wildOffset * p.n) % 2 ^ 32 := by
  cases f with
  | xmss =>
    obtain ⟨e, he, _, rfl⟩ := xmss_parse_entry hp
    have h : ∀ e ∈ Registry.xmss, 4 + (params16 fastSkBytes (funcOf e.family) e.n e.pad e.h e.d 0).sk_bytes ≤
      (wildOffset * (params16 fastSkBytes (funcOf e.family) e.n e.pad e.h e.d 0).n) % 2 ^ 32 := by decide +kernel
    exact h e he
  | xmssmt =>
    obtain ⟨e, he, _, rfl⟩ := xmssmt_parse_entry hp
    have h : ∀ e ∈ Registry.xmssmt, 4 + (params16 fastSkBytes (funcOf e.family) e.n e.pad e.h e.d 0).sk_bytes ≤
      (wildOffset * (params16 fastSkBytes (funcOf e.family) e.n e.pad e.h e.d 0).n) % 2 ^ 32 := by decide +kernel
    exact h e he

/-- **C60 (refutation, XMSS).**  In the fast implementation there is, for every key, every even index and every message, a
content of the traversal state with which the call writes outside the secret key: `none` is undefined behaviour, and the
place of the write is `wildOffset * n` bytes (modulo 2^32, the width of the C computation) behind the node stack. -/
theorem C60_fails_fast_xmss (hp : parseXmssFast oid = some p) (hH : coreHash P p.func p.n = some H) (k : Key) (hk : k.Valid p)
    (idx : Nat) (hi : idx + 1 < 2 ^ p.full_height) (he : idx % 2 = 0) (c : Call) (hsm : p.sig_bytes + c.msg.length ≤ c.sm.length) :
    p.index_bytes + 4 * p.n + (extBytes [wildState p] []).length = p.sk_bytes ∧
      4 + p.sk_bytes ≤ (wildOffset * p.n) % 2 ^ 32 ∧
      Family.xmss.signFast P (k.damaged p oid idx (extBytes [wildState p] [])) c.sm c.smlen0 c.msg = none := by
  have hp' : Family.xmss.parseFast oid = some p := hp
  obtain ⟨g, hskb, ho, _, _, _⟩ := parseFast_good hp'
  obtain ⟨H', hH', hHl⟩ := Family.hashFast (P := P) hp'
  rw [hH] at hH'
  obtain rfl := Option.some.inj hH'
  have f1 := parseFast_fast1 hp'
  refine ⟨?_, ?_, ?_⟩
  · rw [ext1_length (wildState_shape p), hskb, fastSkBytes, f1.d]; omega
  · exact wild_far (f := .xmss) hp
  · have hdam : k.damaged p oid idx (extBytes [wildState p] []) = Rfc.toByte oid 4 ++ k.fast p idx [wildState p] [] := by
      rw [Key.damaged, Key.fast, skHead_mat]
    rw [hdam]
    rcases hr : Family.xmss.signFast P (Rfc.toByte oid 4 ++ k.fast p idx [wildState p] []) c.sm c.smlen0 c.msg with _ | o
    · rfl
    exfalso
    obtain ⟨o', ho', -⟩ := apiSignFast_inv (parse := parseXmssFast) (core := fastXmssSign) hp ho hH hr
    obtain ⟨-, -, -, s', -, -, a, ha, ht⟩ := fastXmssSign_any f1 hHl hk (by omega) (wildState_shape p) c.sm c.smlen0 c.msg hsm ho'
    have hfull := f1.full
    obtain ⟨s1, e1, sh1, hst, -, hso, -, -, -, -, tau, m, htau, hth⟩ := bdsRound_safe (treeCtx_suite g hHl k.skSeed k.pubSeed 0 0) hHl g.th_lt
      (by have := f1.k; omega) ha ((wildState_shape p).with_leaves 0) (φ := idx) (by rw [← hfull]; exact hi)
    obtain rfl : tau = 0 := by
      rcases Nat.eq_zero_or_pos tau with h0 | h0
      · exact h0
      · obtain ⟨r, rfl⟩ : ∃ r, tau = r + 1 := ⟨tau - 1, by omega⟩
        rw [pow_succ, mul_comm (2 ^ r), mul_assoc] at htau
        omega
    have hins : p.insts = p.tree_height := by
      unfold Params.insts; have := (parseFast_good hp').2.2.2.1; omega
    have h3 := f1.th
    have hl : (wildState p).treehash.length = p.insts := (wildState_shape p).insts_len
    have hu := bdsTreehashUpdate_wild (p := p) (H := H) (s := s1) (u := p.insts >>> 1) (skSeed := k.skSeed) (pubSeed := k.pubSeed) (a := a)
      (by omega) (by omega)
      (by
        have := hth 0 { h := 1, nextIdx := 0, stackusage := 0, completed := 0, node := List.replicate p.n 0 }
          (List.getElem?_set_self (by simp [junkState]; omega))
        rw [if_neg (by omega)] at this
        exact ⟨_, this, rfl, rfl, rfl⟩)
      (by
        intro i h1 hi
        have := hth i { h := 0, nextIdx := 0, stackusage := 0, completed := 1, node := List.replicate p.n 0 }
          (by simp [wildState, junkState, hi, show ¬ 0 = i by omega])
        rw [if_neg (by omega)] at this
        exact ⟨_, this, by simp⟩)
      (by
        rw [hst, hso]
        have h31 := g.th_lt
        simp [wildState, junkState, wildOffset]
        omega)
      (by rw [Nat.shiftRight_eq_div_pow]; omega)
    rw [xmssTraverse] at ht
    rw [Nat.shiftLeft_eq, one_mul, if_pos (by rw [← hfull]; omega), e1] at ht
    simp only [Option.bind_eq_bind, Option.bind_some, hu, Option.bind_none] at ht
    cases ht

/-- The same for the multi-tree version: the tree under construction has a wild fill level. -/
def wildStates (p : Params) : List BdsState := List.replicate (2 * p.d - 1) (wildState p)
/-- Stored WOTS signatures next to it. -/
def zeroSigs (p : Params) : List Bytes := List.replicate (p.d - 1) (List.replicate p.wots_sig_bytes 0)

theorem wildStates_shape (p : Params) : ExtShape p (wildStates p) (zeroSigs p) where
  states_len := by simp [wildStates]
  states_mem := by intro s hs; rw [List.eq_of_mem_replicate hs]; exact wildState_shape p
  sigs_len := by simp [zeroSigs]
  sigs_mem := by intro s hs; rw [List.eq_of_mem_replicate hs, List.length_replicate]

/-- **C60 (refutation, XMSS^MT).**  The same for every index which is not in the last tree of the lowest layer. -/
theorem C60_fails_fast_xmssmt (hp : parseXmssmtFast oid = some p) (hH : coreHash P p.func p.n = some H) (k : Key) (hk : k.Valid p)
    (idx : Nat) (hi : idx + 2 ^ p.tree_height < 2 ^ p.full_height) (c : Call) (hsm : p.sig_bytes + c.msg.length ≤ c.sm.length) :
    p.index_bytes + 4 * p.n + (extBytes (wildStates p) (zeroSigs p)).length = p.sk_bytes ∧
      4 + p.sk_bytes ≤ (wildOffset * p.n) % 2 ^ 32 ∧
      Family.xmssmt.signFast P (k.damaged p oid idx (extBytes (wildStates p) (zeroSigs p))) c.sm c.smlen0 c.msg = none := by
  have hp' : Family.xmssmt.parseFast oid = some p := hp
  obtain ⟨g, hskb, ho, _, _, _⟩ := parseFast_good hp'
  obtain ⟨H', hH', hHl⟩ := Family.hashFast (P := P) hp'
  rw [hH] at hH'
  obtain rfl := Option.some.inj hH'
  have f1 := parseFast_mt hp'
  have h1 := Nat.two_pow_pos p.tree_height
  refine ⟨?_, ?_, ?_⟩
  · rw [extBytes_length (wildStates_shape p), hskb, fastSkBytes]; omega
  · exact wild_far (f := .xmssmt) hp
  · have hdam : k.damaged p oid idx (extBytes (wildStates p) (zeroSigs p)) =
        Rfc.toByte oid 4 ++ k.fast p idx (wildStates p) (zeroSigs p) := by
      rw [Key.damaged, Key.fast, skHead_mat]
    rw [hdam]
    rcases hr : Family.xmssmt.signFast P (Rfc.toByte oid 4 ++ k.fast p idx (wildStates p) (zeroSigs p)) c.sm c.smlen0 c.msg with _ | o
    · rfl
    exfalso
    obtain ⟨o', ho', -⟩ := apiSignFast_inv (parse := parseXmssmtFast) (core := fastXmssmtSign) hp ho hH hr
    obtain ⟨-, -, -, -, -, -, -, oa, v, ht⟩ := fastXmssmtSign_any f1 hHl hk (by omega) (wildStates_shape p) c.sm c.smlen0 c.msg hsm ho'
    have hd := f1.d
    have hbranch : (1 + idx >>> p.tree_height) * (1 <<< p.tree_height) + (idx &&& ((1 <<< p.tree_height) - 1)) < 2 ^ p.full_height := by
      rw [Nat.shiftRight_eq_div_pow, Nat.shiftLeft_eq, one_mul, Nat.and_two_pow_sub_one_eq_mod, Nat.add_mul, one_mul]
      have := Nat.div_add_mod' idx (2 ^ p.tree_height)
      omega
    rw [mtTraverse] at ht
    have hget : ((wildStates p).map fun s => { s with leaves := 0 })[p.d]? = some { wildState p with leaves := 0 } := by
      rw [List.getElem?_map, wildStates, List.getElem?_replicate, if_pos (by omega)]; rfl
    have hup : ∀ ad, bdsStateUpdate H p { wildState p with leaves := 0 } k.skSeed k.pubSeed ad = none := by
      intro ad
      have h31 := g.th_lt
      rw [bdsStateUpdate, if_neg (by
        have : (0 : Nat) ≠ 1 <<< p.tree_height := by rw [Nat.shiftLeft_eq, one_mul]; omega
        exact this), addLeaf]
      rw [setA_none (by simp [wildState, junkState, wildOffset]; omega)]
      rfl
    rw [if_pos hbranch, hget] at ht
    simp only [Option.bind_eq_bind, Option.bind_some, hup, Option.bind_none] at ht
    cases ht

/-- **C60 (tool).**  The signing tool of the fast build, run on a key file with such a state, has undefined behaviour: a
content of the key file of the right length with the right public key and key material, for every message file. -/
theorem C60_tool_fails (hp : f.parseFast oid = some p) (k : Key) (hk : k.Valid p) (m : Bytes) (junk : Nat → Bytes)
    (hj : Fresh junk) (smlen0 : Nat) :
    ∃ key : Bytes, key.length = (4 + p.pk_bytes) + (4 + p.sk_bytes) ∧ key.take (4 + p.pk_bytes) = k.pk oid ∧
      (key.drop (4 + p.pk_bytes)).take (4 + p.index_bytes + 4 * p.n) = Rfc.toByte oid 4 ++ Rfc.toByte 0 p.index_bytes ++ k.mat ∧
      uiSignFast P f junk smlen0 (some key) (some m) = none := by
  obtain ⟨g, hskb, ho, _, _, h3⟩ := parseFast_good hp
  obtain ⟨H, hH, hHl⟩ := Family.hashFast (P := P) hp
  have key : ∃ ext : Bytes, p.index_bytes + 4 * p.n + ext.length = p.sk_bytes ∧
      f.signFast P (k.damaged p oid 0 ext) (junk (p.sig_bytes + m.length)) smlen0 m = none := by
    have hj' := hj (p.sig_bytes + m.length)
    cases f with
    | xmss =>
      have f1 := parseFast_fast1 hp
      have h8 : 2 ^ 1 < 2 ^ p.full_height := Nat.pow_lt_pow_right (by omega) (by rw [f1.full]; omega)
      obtain ⟨a, -, b⟩ := C60_fails_fast_xmss (P := P) hp hH k hk 0 (by omega) rfl ⟨junk (p.sig_bytes + m.length), smlen0, m⟩ hj'.ge
      exact ⟨_, a, b⟩
    | xmssmt =>
      have f1 := parseFast_mt hp
      have hh := g.height
      have h8 : 2 ^ p.tree_height < 2 ^ p.full_height := Nat.pow_lt_pow_right (by omega) (by have := f1.d; rw [← hh]; nlinarith)
      obtain ⟨a, -, b⟩ := C60_fails_fast_xmssmt (P := P) hp hH k hk 0 (by omega) ⟨junk (p.sig_bytes + m.length), smlen0, m⟩ hj'.ge
      exact ⟨_, a, b⟩
  obtain ⟨ext, hext, hn⟩ := key
  have hpk : (k.root ++ k.pubSeed).length = p.pk_bytes := by
    rw [List.length_append, hk.root, hk.pubSeed, g.pk_eq]; omega
  have hpkl : (k.pk oid).length = 4 + p.pk_bytes := by
    rw [Key.pk, List.length_append, toByte_length, hpk]
  have hml := Key.mat_length hk
  have hbl : (Rfc.toByte 0 p.index_bytes ++ k.mat ++ ext).length = p.sk_bytes := by
    rw [List.length_append, List.length_append, toByte_length, hml]; omega
  refine ⟨k.pk oid ++ k.damaged p oid 0 ext, ?_, ?_, ?_, ?_⟩
  · rw [List.length_append, hpkl, Key.damaged, List.length_append, toByte_length, hbl]
  · exact List.take_left' hpkl
  · rw [List.drop_left' hpkl, Key.damaged, ← List.append_assoc, ← List.append_assoc]
    exact List.take_left' (by rw [List.length_append, List.length_append, toByte_length, toByte_length, hml])
  · have hr := uiSignReadFast_eq hp hp (k.root ++ k.pubSeed) (Rfc.toByte 0 p.index_bytes ++ k.mat ++ ext) [] hpk hbl
    rw [List.append_nil] at hr
    rw [uiSignFast, uiSignCallFast_eq]
    simp only [Key.pk, Key.damaged, hr, Option.bind_eq_bind, Option.bind_some]
    rw [Key.damaged] at hn
    rw [hn]
    rfl

/-- **C60 (simple implementation).**  Whatever a secret key buffer holds, if its length is the one that belongs to the OID in
its first bytes (any length of at least four bytes for an unknown OID) and the first byte is below 128 (otherwise the shift in
the computation of the OID overflows): signing stays within its buffers, the bytes of the
output buffer behind the signed message keep their content, and an unknown OID is refused without any change. -/
theorem C60_simple_partial (sk sm : Bytes) (l0 : Nat) (m : Bytes) (h4 : 4 ≤ sk.length) (h0 : (sk.headD 0).toNat < 128)
    (hfit : ∀ p, f.parse (Rfc.toNat (sk.take 4)) = some p → sk.length = 4 + p.sk_bytes ∧ p.sig_bytes + m.length ≤ sm.length) :
    ∃ o, f.sign P sk sm l0 m = some o ∧ o.sk.length = sk.length ∧ o.sm.length = sm.length ∧
      (∀ p, f.parse (Rfc.toNat (sk.take 4)) = some p →
        o.sm.drop (p.sig_bytes + m.length) = sm.drop (p.sig_bytes + m.length)) ∧
      (f.parse (Rfc.toNat (sk.take 4)) = none → o.ret = -1 ∧ o.sk = sk ∧ o.sm = sm ∧ o.smlen = l0) := by
  have hlen : (sk.take 4).length = 4 := by rw [List.length_take]; omega
  cases hp : f.parse (Rfc.toNat (sk.take 4)) with
  | some p =>
    obtain ⟨a, b⟩ := hfit p hp
    obtain ⟨o, h1, h2, h3, h5⟩ := C20_sign_safe (P := P) hp sk sm l0 m a
      (by have := toByte_toNat (sk.take 4); rw [hlen] at this; exact this.symm) b
    refine ⟨o, h1, h2, h3, ?_, by intro h; cases h⟩
    intro q hq
    obtain rfl := Option.some.inj hq
    exact h5
  | none =>
    have hr : readOid sk = some (Rfc.toNat (sk.take 4)) := by
      have := readOid_eq (sk.take 4) (sk.drop 4) hlen (by cases sk with
        | nil => simp at h4
        | cons a t => exact h0)
      rwa [List.take_append_drop] at this
    have e : f.sign P sk sm l0 m = some { ret := -1, sk := sk, sm := sm, smlen := l0 } := by
      cases f with
      | xmss =>
        have hp' : parseXmss (Rfc.toNat (sk.take 4)) = none := hp
        show apiSign P parseXmss sk sm l0 m = _
        rw [apiSign, hr]
        simp only [Option.bind_eq_bind, Option.bind_some, hp']
      | xmssmt =>
        have hp' : parseXmssmt (Rfc.toNat (sk.take 4)) = none := hp
        show apiSign P parseXmssmt sk sm l0 m = _
        rw [apiSign, hr]
        simp only [Option.bind_eq_bind, Option.bind_some, hp']
    exact ⟨_, e, rfl, rfl, (by intro q hq; cases hq), fun _ => ⟨rfl, rfl, rfl, rfl⟩⟩

end Xmss
