import Verif.Props.History
import Verif.Proof.FastXmss
import Verif.Spec.FastKeys
/-
C31, C32, C34–C36: the fast (BDS) implementation with a single tree.
-/
namespace Xmss

variable {P : Prims} {oid : Nat} {p pf : Params} {H : Bytes → Bytes}

/-- The fast implementation differs from the simple one only in the size of the secret key. -/
theorem parse_both {f : Family} (hp : f.parse oid = some p) : ∃ pf, f.parseFast oid = some pf ∧
    pf = { p with sk_bytes := fastSkBytes p } := by
  cases f with
  | xmss =>
    have h1 : (xmssParseOid fastSkBytes oid).isSome := by
      rw [C02_xmss_oids fastSkBytes oid, ← C02_xmss_oids slowSkBytes oid]
      rw [show xmssParseOid slowSkBytes oid = some p from hp]; rfl
    obtain ⟨pf, hpf⟩ := Option.isSome_iff_exists.mp h1
    refine ⟨pf, hpf, ?_⟩
    obtain ⟨e, he, ho, rfl⟩ := xmss_parse_entry (show xmssParseOid slowSkBytes oid = some p from hp)
    obtain ⟨e', he', ho', rfl⟩ := xmss_parse_entry hpf
    have : e = e' := nodup_map_inj xmss_oid_nodup he he' (by rw [ho, ho'])
    subst this
    rfl
  | xmssmt =>
    have h1 : (xmssmtParseOid fastSkBytes oid).isSome := by
      rw [C02_xmssmt_oids fastSkBytes oid, ← C02_xmssmt_oids slowSkBytes oid]
      rw [show xmssmtParseOid slowSkBytes oid = some p from hp]; rfl
    obtain ⟨pf, hpf⟩ := Option.isSome_iff_exists.mp h1
    refine ⟨pf, hpf, ?_⟩
    obtain ⟨e, he, ho, rfl⟩ := xmssmt_parse_entry (show xmssmtParseOid slowSkBytes oid = some p from hp)
    obtain ⟨e', he', ho', rfl⟩ := xmssmt_parse_entry hpf
    have : e = e' := nodup_map_inj xmssmt_oid_nodup he he' (by rw [ho, ho'])
    subst this
    rfl

theorem parseFast_good {f : Family} (hp : f.parseFast oid = some p) : p.Good ∧ p.sk_bytes = fastSkBytes p ∧ oid < 2 ^ 8 ∧
    p.bds_k = 0 ∧ (f = .xmss → p.d = 1 ∧ p.index_bytes = 4) ∧ 3 ≤ p.tree_height := by
  cases f with
  | xmss =>
    have ho := (C02_xmss_oids fastSkBytes oid).mp (by rw [show xmssParseOid fastSkBytes oid = some p from hp]; rfl)
    have g := xmss_parse_good hp
    obtain ⟨e, he, _, rfl⟩ := xmss_parse_entry hp
    have h1 : ∀ e ∈ Registry.xmss, e.d = 1 ∧ 3 ≤ e.h / e.d := by decide +kernel
    obtain ⟨hd, hh⟩ := h1 e he
    refine ⟨g, rfl, by omega, rfl, fun _ => ⟨hd, ?_⟩, hh⟩
    show (if e.d = 1 then 4 else _) = 4
    rw [if_pos hd]
  | xmssmt =>
    have ho := (C02_xmssmt_oids fastSkBytes oid).mp (by rw [show xmssmtParseOid fastSkBytes oid = some p from hp]; rfl)
    have g := xmssmt_parse_good hp
    obtain ⟨e, he, _, rfl⟩ := xmssmt_parse_entry hp
    have h1 : ∀ e ∈ Registry.xmssmt, 3 ≤ e.h / e.d := by decide +kernel
    exact ⟨g, rfl, by omega, rfl, nofun, h1 e he⟩

theorem parseFast_fast1 (hp : parseXmssFast oid = some p) : Fast1 p := by
  obtain ⟨g, h1, _, h2, h3, h4⟩ := parseFast_good (f := .xmss) hp
  obtain ⟨h5, h6⟩ := h3 rfl
  exact ⟨g, h5, h6, h4, by omega, h1⟩

/-! ### C31 -/

/-- **C31.**  Writing traversal states and stored WOTS signatures into a secret key and reading them back gives the same
states and signatures, for every accepted OID, every key buffer of `sk_bytes` bytes and all states whose arrays have
their sizes and whose counters fit their fields (`ExtShape`; the ghost counter `leaves` is not stored).  The size of the
key and its first `index_bytes + 4n` bytes do not change. -/
theorem C31_state_roundtrip {f : Family} (hp : f.parseFast oid = some p) (sk : Bytes) (hsk : sk.length = p.sk_bytes)
    (states : List BdsState) (sigs : List Bytes) (h : ExtShape p states sigs) :
    ∃ sk', serializeStates p sk states sigs = some sk' ∧ sk'.length = sk.length ∧
      sk'.take (p.index_bytes + 4 * p.n) = sk.take (p.index_bytes + 4 * p.n) ∧
      deserializeStates p sk' = some (states.map fun s => { s with leaves := 0 }, sigs) := by
  obtain ⟨_, hb, _⟩ := parseFast_good hp
  have hl := extBytes_length h
  rw [fastSkBytes] at hb
  have e := serialize_eq (p := p) (states := states) (sigs := sigs) (sk.take (p.index_bytes + 4 * p.n))
    (sk.drop (p.index_bytes + 4 * p.n)) [] (by simp; omega) (by rw [hl]; simp; omega)
  rw [List.append_nil, List.take_append_drop, List.append_nil] at e
  refine ⟨_, e, ?_, ?_, ?_⟩
  · rw [List.length_append, hl]; simp; omega
  · rw [List.take_left' (by simp; omega)]
  · have := deserialize_eq h (sk.take (p.index_bytes + 4 * p.n)) [] (by simp; omega)
    rwa [List.append_nil] at this

/-- **C31.**  The encoding uses every byte behind the first `index_bytes + 4n`: every key buffer of `sk_bytes` bytes can
be read, gives states of the right sizes, and writing them back reproduces it. -/
theorem C31_key_is_state {f : Family} (hp : f.parseFast oid = some p) (sk : Bytes) (hsk : sk.length = p.sk_bytes) :
    ∃ states sigs, deserializeStates p sk = some (states, sigs) ∧ ExtShape p states sigs ∧
      serializeStates p sk states sigs = some sk := by
  obtain ⟨_, hb, _⟩ := parseFast_good hp
  obtain ⟨states, sigs, e, sh, _, eb⟩ := deserialize_any (p := p) sk (by rw [hsk, hb])
  rw [fastSkBytes] at hb
  refine ⟨states, sigs, e, sh, ?_⟩
  have e2 : sk.drop (p.index_bytes + 4 * p.n) = extBytes states sigs := by
    rw [rd_some (by omega)] at eb
    simp only [Option.some.injEq] at eb
    rw [← eb, List.take_of_length_le (by simp; omega)]
  have e3 : sk = sk.take (p.index_bytes + 4 * p.n) ++ extBytes states sigs ++ [] := by
    rw [← e2, List.append_nil, List.take_append_drop]
  conv_lhs => rw [e3]
  rw [serialize_eq _ _ _ (by simp; omega) rfl, ← e3]

-- Non-vacuity: XMSS-SHA2_10_256 (1 state) and XMSSMT-SHA2_20/4_256 (7 states, 3 signatures) have keys of 1373 and 10938
-- bytes behind the OID.
example : ∃ p, Family.xmss.parseFast 1 = some p ∧ p.sk_bytes = 1373 ∧ 2 * p.d - 1 = 1 := ⟨_, rfl, by decide, by decide⟩
example : ∃ p, Family.xmssmt.parseFast 2 = some p ∧ p.sk_bytes = 10938 ∧ 2 * p.d - 1 = 7 ∧ p.d - 1 = 3 :=
  ⟨_, rfl, by decide, by decide, by decide⟩

/-! ### Histories of the core functions -/

/-- A secret key of the fast single-tree implementation after `n` signatures with key `k`. -/
def After1 (p : Params) (H : Bytes → Bytes) (k : Key) (n : Nat) (sk : Bytes) : Prop :=
  if n < 2 ^ p.full_height then ∃ s, Ready p ((suiteOf p H).node k.skSeed k.pubSeed 0 0) [] n s ∧ sk = k.fast p n [s] []
  else ∃ ib body : Bytes, ib.length = p.index_bytes ∧ p.index_bytes + body.length = p.sk_bytes ∧
    2 ^ p.full_height ≤ Rfc.toNat ib ∧ sk = ib ++ body

/-- What call number `n` (from 0) of a history does. -/
structure Post1 (p : Params) (H : Bytes → Bytes) (k : Key) (n : Nat) (c : Call) (o : FastOut) : Prop where
  ok : n + 1 < 2 ^ p.full_height → o.ret = 0 ∧ o.smlen = p.sig_bytes + c.msg.length ∧
    o.sm = (suiteOf p H).sign k.skSeed k.skPrf k.root k.pubSeed n c.msg ++ c.msg ++ c.sm.drop (p.sig_bytes + c.msg.length) ∧
    o.sk.take (p.index_bytes + 4 * p.n) =
      Rfc.toByte (n + 1) p.index_bytes ++ k.skSeed ++ k.skPrf ++ k.root ++ k.pubSeed
  last : n + 1 = 2 ^ p.full_height → o.ret = 0 ∧ o.smlen = p.sig_bytes + c.msg.length ∧ 
    o.sm = fastLastSig p H c.msg ++ c.msg ++ c.sm.drop (p.sig_bytes + c.msg.length) ∧
    o.sk.take (p.index_bytes + 4 * p.n) = Rfc.toByte (n + 1) p.index_bytes ++ List.replicate (4 * p.n) 0
  over : 2 ^ p.full_height ≤ n → o.ret = -2 ∧ o.sm = c.sm ∧ o.smlen = c.smlen0 ∧
    o.sk = List.replicate p.index_bytes 0xFF ++ List.replicate (p.sk_bytes - p.index_bytes) 0
  size : o.sk.length = p.sk_bytes
  work : o.leaves ≤ p.insts / 2 + 1

theorem Key.fast_length (f : Fast1 p) {k : Key} (hk : k.Valid p) {idx : Nat} {s : BdsState} (sh : Shape p s) :
    (k.fast p idx [s] []).length = p.sk_bytes := by
  rw [Key.fast, List.length_append, skHead_length (toByte_length _ _) hk.skSeed hk.skPrf hk.root hk.pubSeed, ext1_length sh,
    f.sk, fastSkBytes, f.d]
  omega

theorem Key.fast_take {k : Key} (hk : k.Valid p) (idx : Nat) (states : List BdsState) (sigs : List Bytes) :
    (k.fast p idx states sigs).take (p.index_bytes + 4 * p.n) =
      Rfc.toByte idx p.index_bytes ++ k.skSeed ++ k.skPrf ++ k.root ++ k.pubSeed := by
  rw [Key.fast, List.take_left' (skHead_length (toByte_length _ _) hk.skSeed hk.skPrf hk.root hk.pubSeed)]
  rfl

theorem zero4 (p : Params) : (Key.zero p).skSeed ++ (Key.zero p).skPrf ++ (Key.zero p).root ++ (Key.zero p).pubSeed =
    List.replicate (4 * p.n) 0 := by
  have := replicate_split p.n 0
  simp only [Nat.add_zero, List.replicate_zero, List.append_nil] at this
  rw [this]; rfl

theorem After1.step (f : Fast1 p) (hu : min p.insts (p.tree_height - 2) ≤ 2 * (p.insts / 2))
    (hH : ∀ x, (H x).length = p.n) {k : Key} (hk : k.Valid p) {n : Nat} {sk : Bytes} (a : After1 p H k n sk) (c : Call)
    (hc : p.sig_bytes + c.msg.length ≤ c.sm.length) :
    ∃ o, fastXmssSign H p sk c.sm c.smlen0 c.msg = some o ∧ After1 p H k (n + 1) o.sk ∧ Post1 p H k n c o := by
  have g := f.good
  have hpos : 0 < 2 ^ p.full_height := Nat.two_pow_pos _
  have hlt : 2 ^ p.full_height < 256 ^ p.index_bytes := by
    rw [f.ib, f.full, show 256 ^ 4 = 2 ^ 32 from rfl]
    exact Nat.pow_lt_pow_right (by omega) (by have := g.th_lt; omega)
  unfold After1 at a
  by_cases h1 : n < 2 ^ p.full_height
  · rw [if_pos h1] at a
    obtain ⟨s, r, rfl⟩ := a
    by_cases h2 : n < 2 ^ p.full_height - 1
    · obtain ⟨s', w, r', hw, e⟩ := fastXmssSign_step f hu hH hk h2 r c.sm c.smlen0 c.msg hc
      refine ⟨_, e, ?_, ?_⟩
      · rw [After1, if_pos (by omega)]
        exact ⟨s', r', rfl⟩
      · exact ⟨fun _ => ⟨rfl, rfl, rfl, Key.fast_take hk _ _ _⟩, fun h => by omega, fun h => by omega,
          Key.fast_length f hk r'.shape, hw⟩
    · have h3 : n = 2 ^ p.full_height - 1 := by omega
      subst h3
      have hz : (Key.zero p).Valid p := Key.zero_valid p
      obtain ⟨s', w, sh', hw, e⟩ := fastXmssSign_last f hH hk r.shape c.sm c.smlen0 c.msg hc
      have e1 : 2 ^ p.full_height - 1 + 1 = 2 ^ p.full_height := by omega
      refine ⟨_, e, ?_, ?_⟩
      · rw [After1, if_neg (by omega)]
        refine ⟨Rfc.toByte (2 ^ p.full_height) p.index_bytes, List.replicate (4 * p.n) 0 ++ extBytes [s'] [], toByte_length _ _, ?_, ?_, ?_⟩
        · rw [List.length_append, List.length_replicate, ext1_length sh', f.sk, fastSkBytes, f.d]
          omega
        · rw [toNat_toByte, Nat.mod_eq_of_lt hlt]
        · rw [← zero4]
          simp [Key.fast, skHead]
      · refine ⟨fun h => by omega, fun _ => ⟨rfl, rfl, ?_, ?_⟩, fun h => by omega, Key.fast_length f hz sh', by rw [hw]; exact Nat.zero_le _⟩
        · have hlt2 : 2 ^ p.full_height - 1 < 2 ^ p.tree_height := by
            have := Nat.two_pow_pos p.tree_height
            rw [f.full]; omega
          rw [fastLastSig, Nat.div_eq_of_lt hlt2, Nat.mod_eq_of_lt hlt2, f.d]
          simp
        · rw [e1]
          show ((Key.zero p).fast p (2 ^ p.full_height) [s'] []).take _ = _
          rw [Key.fast_take hz, ← zero4]
          simp
  · rw [if_neg h1] at a
    obtain ⟨ib, body, hib, hb, hi, rfl⟩ := a
    have e := fastXmssSign_exhausted (H := H) f hib hb hi c.sm c.smlen0 c.msg
    refine ⟨_, e, ?_, ?_⟩
    · rw [After1, if_neg (by omega)]
      refine ⟨_, _, List.length_replicate, ?_, ?_, rfl⟩
      · rw [List.length_replicate, hb]
      · rw [toByte_ff, toNat_toByte]
        have : 0 < 256 ^ p.index_bytes := by positivity
        rw [Nat.mod_eq_of_lt (by omega)]
        omega
    · refine ⟨fun h => by omega, fun h => by omega, fun _ => ⟨rfl, rfl, rfl, ?_⟩, ?_, Nat.zero_le _⟩
      · rw [show body.length = p.sk_bytes - p.index_bytes by omega]
      · simp only [List.length_append, List.length_replicate]; exact hb

theorem coreSignAllFast_eq (f : Fast1 p) (hu : min p.insts (p.tree_height - 2) ≤ 2 * (p.insts / 2))
    (hH : ∀ x, (H x).length = p.n) {k : Key} (hk : k.Valid p) : ∀ (cs : List Call) (n : Nat) (sk : Bytes), After1 p H k n sk →
    (∀ c ∈ cs, p.sig_bytes + c.msg.length ≤ c.sm.length) →
    ∃ os, coreSignAllFast H p sk cs = some os ∧ os.length = cs.length ∧
      ∀ j c, cs[j]? = some c → ∃ o, os[j]? = some o ∧ Post1 p H k (n + j) c o := by
  intro cs
  induction cs with
  | nil => intro n sk _ _; exact ⟨[], rfl, rfl, by simp⟩
  | cons c cs ih =>
    intro n sk a hs
    obtain ⟨o, e, a', ho⟩ := a.step f hu hH hk c (hs c (by simp))
    obtain ⟨os, e2, hl, hp⟩ := ih (n + 1) o.sk a' fun c' h' => hs c' (by simp [h'])
    refine ⟨o :: os, ?_, by simp [hl], ?_⟩
    · rw [coreSignAllFast, e]
      simp only [Option.bind_eq_bind, Option.bind_some, e2]
    · intro j c' hj
      cases j with
      | zero =>
        rw [List.getElem?_cons_zero] at hj
        cases hj
        exact ⟨o, rfl, ho⟩
      | succ j =>
        rw [List.getElem?_cons_succ] at hj
        obtain ⟨o', h1, h2⟩ := hp j c' hj
        exact ⟨o', by simpa using h1, by rw [show n + (j + 1) = n + 1 + j by omega]; exact h2⟩

/-- Key generation leaves a key with no signature made. -/
theorem fastXmssKeypair_after (f : Fast1 p) (hH : ∀ x, (H x).length = p.n) (pk sk sA sB sC : Bytes)
    (hpk : pk.length = 2 * p.n) (hsk : sk.length = p.sk_bytes)
    (hA : sA.length = p.n) (hB : sB.length = p.n) (hC : sC.length = p.n) :
    ∃ k : Key, k.Valid p ∧ k.Honest (suiteOf p H) ∧ k.skSeed = sA ∧ k.skPrf = sB ∧ k.pubSeed = sC ∧
      ∃ sk', fastXmssKeypair H p pk sk (sA ++ sB ++ sC) = some (k.root ++ k.pubSeed, sk') ∧ After1 p H k 0 sk' := by
  obtain ⟨s, r, e⟩ := fastXmssKeypair_eq f hH pk sk sA sB sC hpk hsk hA hB hC
  refine ⟨⟨sA, sB, (suiteOf p H).root sA sC, sC⟩, ⟨hA, hB, node_length f.good hH _ _ _ _ _ _, hC⟩, rfl, rfl, rfl, rfl, _, e, ?_⟩
  rw [After1, if_pos (Nat.two_pow_pos _)]
  exact ⟨s, r, rfl⟩

/-! ### C36 -/

/-- **C36 (positive part).**  The fast single-tree implementation is correct for every hash function, every tree height
from 3 on and every trade-off parameter `bds_k ≤ tree_height` with `bds_k ≤ 1` or `tree_height - bds_k` even: from
arbitrary buffer contents, key generation delivers the RFC root, and in every history of sign calls call number `j`
returns exactly the RFC 8391 signature with index `j`, for all `j` below the last index.  Missing from the full claim:
`tree_height - bds_k` odd with `bds_k ≥ 2`, where it is false (`C36_fails`). -/
theorem C36_any_tradeoff_partial (f : Fast1 p) (hk : p.bds_k ≤ 1 ∨ (p.tree_height - p.bds_k) % 2 = 0)
    (hH : ∀ x, (H x).length = p.n) (pk sk sA sB sC : Bytes) (hpk : pk.length = 2 * p.n) (hsk : sk.length = p.sk_bytes)
    (hA : sA.length = p.n) (hB : sB.length = p.n) (hC : sC.length = p.n) :
    ∃ sk', fastXmssKeypair H p pk sk (sA ++ sB ++ sC) = some ((suiteOf p H).root sA sC ++ sC, sk') ∧
      ∀ cs : List Call, (∀ c ∈ cs, p.sig_bytes + c.msg.length ≤ c.sm.length) →
        ∃ os, coreSignAllFast H p sk' cs = some os ∧ os.length = cs.length ∧
          ∀ j c, cs[j]? = some c → j + 1 < 2 ^ p.full_height → ∃ o, os[j]? = some o ∧ o.ret = 0 ∧
            o.smlen = p.sig_bytes + c.msg.length ∧
            o.sm = (suiteOf p H).sign sA sB ((suiteOf p H).root sA sC) sC j c.msg ++ c.msg ++
              c.sm.drop (p.sig_bytes + c.msg.length) := by
  have hu : min p.insts (p.tree_height - 2) ≤ 2 * (p.insts / 2) := by
    have := f.th
    have := f.k
    unfold Params.insts
    rcases hk with h | h <;> omega
  obtain ⟨k, hv, hh, rfl, rfl, rfl, sk', e, a⟩ := fastXmssKeypair_after f hH pk sk sA sB sC hpk hsk hA hB hC
  rw [Key.Honest] at hh
  refine ⟨sk', by rw [e, ← hh], ?_⟩
  intro cs hcs
  obtain ⟨os, e2, hl, hp⟩ := coreSignAllFast_eq f hu hH hv cs 0 sk' a hcs
  refine ⟨os, e2, hl, ?_⟩
  intro j c hj hlt
  obtain ⟨o, h1, h2⟩ := hp j c hj
  rw [Nat.zero_add] at h2
  obtain ⟨h3, h4, h5, _⟩ := h2.ok hlt
  exact ⟨o, h1, h3, h4, by rw [h5, ← hh]⟩

/-! ### API level -/

theorem apiSignFast_eq {parse : Nat → Option Params}
    {core : (Bytes → Bytes) → Params → Bytes → Bytes → Nat → Bytes → Option FastOut} (hp : parse oid = some p)
    (ho : oid < 2 ^ 8) (hH : coreHash P p.func p.n = some H) {body sm m : Bytes} {l0 : Nat} {o : FastOut}
    (hc : core H p body sm l0 m = some o) :
    apiSignFast P parse core (Rfc.toByte oid 4 ++ body) sm l0 m = some { o with sk := Rfc.toByte oid 4 ++ o.sk } := by
  have t1 : ∀ x : Bytes, (Rfc.toByte oid 4 ++ x).drop oidLen = x := fun x => List.drop_left' (toByte_length _ _)
  have t2 : ∀ x : Bytes, (Rfc.toByte oid 4 ++ x).take oidLen = Rfc.toByte oid 4 := fun x =>
    List.take_left' (toByte_length _ _)
  rw [apiSignFast, readOid_toByte (by omega)]
  simp only [Option.bind_eq_bind, Option.bind_some, hp, hH, t1, t2, hc]

theorem apiKeypairFast_eq {parse : Nat → Option Params}
    {core : (Bytes → Bytes) → Params → Bytes → Bytes → Bytes → Option (Bytes × Bytes)} (hp : parse oid = some p)
    (hH : coreHash P p.func p.n = some H) {pk sk : Bytes} {seed : Nat → Bytes} {r : Bytes × Bytes}
    (hpk : 4 ≤ pk.length) (hsk : 4 ≤ sk.length) (hc : core H p (pk.drop 4) (sk.drop 4) (seed p.n) = some r) :
    apiKeypairFast P parse core pk sk oid seed = some (0, Rfc.toByte oid 4 ++ r.1, Rfc.toByte oid 4 ++ r.2) := by
  have t1 : ∀ x : Bytes, (Rfc.toByte oid 4 ++ x).drop oidLen = x := fun x => List.drop_left' (toByte_length _ _)
  have t2 : ∀ x : Bytes, (Rfc.toByte oid 4 ++ x).take oidLen = Rfc.toByte oid 4 := fun x =>
    List.take_left' (toByte_length _ _)
  have w : ∀ b : Bytes, 4 ≤ b.length → wr b 0 (Rfc.toByte oid 4) = some (Rfc.toByte oid 4 ++ b.drop 4) := by
    intro b hb
    rw [wr_mid (buf := b) (off := 0) (y := b.take 4) [] (b.drop 4) (by simp) rfl (by rw [toByte_length]; simp; omega)]
    rfl
  rw [apiKeypairFast]
  simp only [hp, oidBytes_eq, w pk hpk, w sk hsk, Option.bind_eq_bind, Option.bind_some, hH, t1, t2, hc]

theorem signAllFast_core (hp : parseXmssFast oid = some p) (ho : oid < 2 ^ 8) (hH : coreHash P p.func p.n = some H) :
    ∀ (cs : List Call) (sk : Bytes) (os : List FastOut), coreSignAllFast H p sk cs = some os →
      signAllFast P .xmss (Rfc.toByte oid 4 ++ sk) cs = some (os.map fun o => { o with sk := Rfc.toByte oid 4 ++ o.sk }) := by
  intro cs
  induction cs with
  | nil => intro sk os h; cases h; rfl
  | cons c cs ih =>
    intro sk os h
    rw [coreSignAllFast] at h
    cases h1 : fastXmssSign H p sk c.sm c.smlen0 c.msg with
    | none => rw [h1] at h; cases h
    | some o =>
      rw [h1] at h
      simp only [Option.bind_eq_bind, Option.bind_some] at h
      cases h2 : coreSignAllFast H p o.sk cs with
      | none => rw [h2] at h; cases h
      | some os' =>
        rw [h2] at h
        simp only [Option.bind_some, Option.some.injEq] at h
        subst h
        rw [signAllFast, show Family.signFast P Family.xmss = apiSignFast P parseXmssFast fastXmssSign from rfl,
          apiSignFast_eq hp ho hH h1]
        simp only [Option.bind_eq_bind, Option.bind_some, ih o.sk os' h2, List.map_cons]

/-- Everything about a key pair of the fast single-tree implementation and its histories, in terms of RFC 8391. -/
theorem fast_xmss_history (hp : parseXmssFast oid = some p) (hH : coreHash P p.func p.n = some H) (pk0 sk0 : Bytes)
    (hpk : pk0.length = 4 + p.pk_bytes) (hsk : sk0.length = 4 + p.sk_bytes) (seed : Nat → Bytes)
    (hs : (seed p.n).length = 3 * p.n) : ∃ k : Key, k.Valid p ∧ k.Honest (suiteOf p H) ∧
      seed p.n = k.skSeed ++ k.skPrf ++ k.pubSeed ∧
      ∃ sk, xmssKeypairFast P pk0 sk0 oid seed = some (0, k.pk oid, Rfc.toByte oid 4 ++ sk) ∧
        ∀ cs : List Call, (∀ c ∈ cs, p.sig_bytes + c.msg.length ≤ c.sm.length) →
          ∃ os : List FastOut, signAllFast P .xmss (Rfc.toByte oid 4 ++ sk) cs = some (os.map fun o => { o with sk := Rfc.toByte oid 4 ++ o.sk }) ∧
            os.length = cs.length ∧ ∀ j c, cs[j]? = some c → ∃ o, os[j]? = some o ∧ Post1 p H k j c o := by
  have f1 := parseFast_fast1 hp
  obtain ⟨g, _, ho, hk0, _, _⟩ := parseFast_good (f := .xmss) hp
  have hu : min p.insts (p.tree_height - 2) ≤ 2 * (p.insts / 2) := by unfold Params.insts; omega
  have hHl : ∀ x, (H x).length = p.n := by
    obtain ⟨H', h, h'⟩ := C12_core_hash P _ oid p (Or.inl hp)
    rw [hH] at h; cases h; exact h'
  have hpkb := g.pk_eq
  obtain ⟨a, b, c, e, h1, h2, h3⟩ : ∃ a b c : Bytes, seed p.n = a ++ b ++ c ∧ a.length = p.n ∧ b.length = p.n ∧
      c.length = p.n :=
    ⟨(seed p.n).take p.n, ((seed p.n).drop p.n).take p.n, (seed p.n).drop (p.n + p.n), split3 _ _ _,
      by simp; omega, by simp; omega, by simp; omega⟩
  obtain ⟨k, hv, hh, rfl, rfl, rfl, sk', e', af⟩ := fastXmssKeypair_after f1 hHl (pk0.drop 4) (sk0.drop 4) a b c
    (by simp; omega) (by simp; omega) h1 h2 h3
  rw [← e] at e'
  refine ⟨k, hv, hh, e, sk', ?_, ?_⟩
  · exact apiKeypairFast_eq hp hH (by omega) (by omega) e'
  · intro cs hcs
    obtain ⟨os, e2, hl, hp2⟩ := coreSignAllFast_eq f1 hu hHl hv cs 0 sk' af hcs
    refine ⟨os, signAllFast_core hp ho hH cs sk' os e2, hl, ?_⟩
    intro j c hj
    have := hp2 j c hj
    rwa [Nat.zero_add] at this

/-! ### C32 -/

/-- **C32.**  Linked with the fast implementation, XMSS behaves exactly as with the simple one: for every accepted OID,
every hash function and every seed, both key generations return the same public key, whatever was in the buffers; and
in every history of sign calls with the same messages and output buffers, call number `j` returns the same value, the
same length and the same bytes of signed message in both, and leaves the same index, seeds and root in the secret key,
for every `j` below the last index `2^h - 1`. -/
theorem C32_fast_xmss_equals_simple (hp : parseXmss oid = some p) (hpf : parseXmssFast oid = some pf)
    (pk0 sk0 pkf0 skf0 : Bytes) (hpk : pk0.length = 4 + p.pk_bytes) (hsk : sk0.length = 4 + p.sk_bytes)
    (hpkf : pkf0.length = 4 + pf.pk_bytes) (hskf : skf0.length = 4 + pf.sk_bytes) (seed : Nat → Bytes)
    (hs : (seed p.n).length = 3 * p.n) :
    ∃ pk sk skf, xmssKeypair P pk0 sk0 oid seed = some (0, pk, sk) ∧
      xmssKeypairFast P pkf0 skf0 oid seed = some (0, pk, skf) ∧
      ∀ cs, Sized p cs → ∃ os ofs, signAll P .xmss sk cs = some os ∧ signAllFast P .xmss skf cs = some ofs ∧
        os.length = cs.length ∧ ofs.length = cs.length ∧
        ∀ j o o', j < 2 ^ p.full_height - 1 → os[j]? = some o → ofs[j]? = some o' →
          o'.ret = 0 ∧ o'.ret = o.ret ∧ o'.sm = o.sm ∧ o'.smlen = o.smlen ∧
          o'.sk.take (4 + p.index_bytes + 4 * p.n) = o.sk := by
  obtain ⟨pf', hpf', e⟩ := parse_both (f := .xmss) hp
  rw [show Family.parseFast .xmss oid = parseXmssFast oid from rfl, hpf] at hpf'
  cases hpf'
  obtain ⟨g, hskb, ho, H, hH⟩ := Family.facts (P := P) (f := .xmss) hp
  have hHf : coreHash P pf.func pf.n = some H := by rw [e]; exact hH
  have hS : suiteOf pf H = suiteOf p H := by rw [e]; rfl
  have en : pf.n = p.n := by rw [e]
  have eib : pf.index_bytes = p.index_bytes := by rw [e]
  have esig : pf.sig_bytes = p.sig_bytes := by rw [e]
  have efh : pf.full_height = p.full_height := by rw [e]
  obtain ⟨k, hv, hh, hsd, ek⟩ := keypair_key (f := .xmss) hp hH pk0 sk0 hpk hsk seed hs
  obtain ⟨k', hv', hh', hsd', skf, ekf, hist⟩ := fast_xmss_history hpf hHf pkf0 skf0 hpkf hskf seed (by rw [en]; exact hs)
  have hkk : k' = k := by
    rw [en, hsd] at hsd'
    have l1 : k.skSeed.length = k'.skSeed.length := by rw [hv.skSeed, hv'.skSeed, en]
    have l2 : k.skPrf.length = k'.skPrf.length := by rw [hv.skPrf, hv'.skPrf, en]
    obtain ⟨a1, a2⟩ := List.append_inj hsd' (by simp [l1, l2])
    obtain ⟨a3, a4⟩ := List.append_inj a1 l1
    rw [Key.Honest] at hh hh'
    rw [hS, ← a3, ← a2] at hh'
    have a5 : k.root = k'.root := by rw [hh, hh']
    cases k; cases k'
    simp_all
  subst hkk
  refine ⟨_, _, _, ek, ekf, ?_⟩
  intro cs hcs
  obtain ⟨os, e1, l1, h1⟩ := hist cs (fun c hc => by rw [esig]; exact (hcs c hc).ge)
  have e2 := signAll_eq (f := .xmss) hp hH cs 0 k' hv (by positivity) hcs
  refine ⟨_, _, e2, e1, by simp, by simp [l1], ?_⟩
  intro j o o' hj ho1 ho2
  have hj' : j < cs.length := by
    by_contra hn
    rw [List.getElem?_eq_none (by simp; omega)] at ho1
    cases ho1
  obtain ⟨o3, e3, h3⟩ := h1 j cs[j] (List.getElem?_eq_getElem hj')
  rw [List.getElem?_map, e3] at ho2
  simp only [Option.map_some, Option.some.injEq] at ho2
  rw [List.getElem?_mapIdx, List.getElem?_eq_getElem hj'] at ho1
  simp only [Option.map_some, Option.some.injEq] at ho1
  rw [stateAfter_lt j (by omega)] at ho1
  have hsz := hcs cs[j] (List.getElem_mem hj')
  obtain ⟨c1, c2, c3, c4⟩ := h3.ok (by rw [efh]; omega)
  subst ho1 ho2
  simp only [outcome, if_pos hj, if_pos (show j < 2 ^ p.full_height by omega), c1, c2, c3, esig, hS]
  refine ⟨trivial, trivial, ?_, trivial, ?_⟩
  · rw [List.drop_of_length_le (by omega), List.append_nil]
  · rw [Nat.add_assoc, List.take_append, toByte_length, List.take_of_length_le (by rw [toByte_length]; omega)]
    rw [en, eib] at c4
    rw [show 4 + (p.index_bytes + 4 * p.n) - 4 = p.index_bytes + 4 * p.n by omega, c4, nextKey, nextIdx, if_pos hj, if_pos hj,
      Key.sk]

/-! ### C34, C35 -/

/-- **C34 (single tree).**  No history of the fast implementation leaves its arrays: for every accepted OID, whatever the
buffers contained before key generation, key generation and every sequence of sign calls of any length, also at and
behind the last index, is defined.  (In the model an access outside `auth`, `keep`, `retain`, `treehash`, the
`tree_height + 1` stack slots, or a caller's buffer is undefined.) -/
theorem C34_fast_xmss_safe (hp : parseXmssFast oid = some p) (pk0 sk0 : Bytes)
    (hpk : pk0.length = 4 + p.pk_bytes) (hsk : sk0.length = 4 + p.sk_bytes) (seed : Nat → Bytes)
    (hs : (seed p.n).length = 3 * p.n) :
    ∃ pk sk, xmssKeypairFast P pk0 sk0 oid seed = some (0, pk, sk) ∧ pk.length = pk0.length ∧ sk.length = sk0.length ∧
      ∀ cs : List Call, (∀ c ∈ cs, p.sig_bytes + c.msg.length ≤ c.sm.length) →
        ∃ os, signAllFast P .xmss sk cs = some os ∧ os.length = cs.length ∧ ∀ o ∈ os, o.sk.length = sk0.length := by
  obtain ⟨H, hH, _⟩ := C12_core_hash P _ oid p (Or.inl hp)
  obtain ⟨g, _, ho, hk0, _, _⟩ := parseFast_good (f := .xmss) hp
  have f1 := parseFast_fast1 hp
  have hu : min p.insts (p.tree_height - 2) ≤ 2 * (p.insts / 2) := by unfold Params.insts; omega
  have hHl : ∀ x, (H x).length = p.n := by
    obtain ⟨H', h, h'⟩ := C12_core_hash P _ oid p (Or.inl hp)
    rw [hH] at h; cases h; exact h'
  have hpkb := g.pk_eq
  obtain ⟨a, b, c, e, h1, h2, h3⟩ : ∃ a b c : Bytes, seed p.n = a ++ b ++ c ∧ a.length = p.n ∧ b.length = p.n ∧
      c.length = p.n :=
    ⟨(seed p.n).take p.n, ((seed p.n).drop p.n).take p.n, (seed p.n).drop (p.n + p.n), split3 _ _ _,
      by simp; omega, by simp; omega, by simp; omega⟩
  obtain ⟨k, hv, hh, rfl, rfl, rfl, sk', e', af⟩ := fastXmssKeypair_after f1 hHl (pk0.drop 4) (sk0.drop 4) a b c
    (by simp; omega) (by simp; omega) h1 h2 h3
  rw [← e] at e'
  refine ⟨_, _, apiKeypairFast_eq hp hH (by omega) (by omega) e', ?_, ?_, ?_⟩
  · simp only [List.length_append, toByte_length, hv.root, hv.pubSeed]; omega
  · rw [After1, if_pos (Nat.two_pow_pos _)] at af
    obtain ⟨s, r, rfl⟩ := af
    rw [List.length_append, toByte_length, Key.fast_length f1 hv r.shape]
    omega
  · intro cs hcs
    obtain ⟨os, e2, hl, hp2⟩ := coreSignAllFast_eq f1 hu hHl hv cs 0 sk' af hcs
    refine ⟨_, signAllFast_core hp ho hH cs sk' os e2, by simp [hl], ?_⟩
    intro o hmem
    obtain ⟨o', hm, rfl⟩ := List.mem_map.mp hmem
    obtain ⟨j, hj, hjo⟩ := List.getElem_of_mem hm
    obtain ⟨o2, e3, post⟩ := hp2 j cs[j] (List.getElem?_eq_getElem (by omega))
    rw [List.getElem?_eq_getElem hj, hjo] at e3
    cases e3
    simp only [List.length_append, toByte_length, post.size]
    omega

/-- **C35 (single tree).**  Every call in every history computes at most `(tree_height - bds_k) / 2 + 1` leaves of the
tree. -/
theorem C35_fast_xmss_work (hp : parseXmssFast oid = some p) (pk0 sk0 : Bytes)
    (hpk : pk0.length = 4 + p.pk_bytes) (hsk : sk0.length = 4 + p.sk_bytes) (seed : Nat → Bytes)
    (hs : (seed p.n).length = 3 * p.n) :
    ∃ pk sk, xmssKeypairFast P pk0 sk0 oid seed = some (0, pk, sk) ∧
      ∀ cs : List Call, (∀ c ∈ cs, p.sig_bytes + c.msg.length ≤ c.sm.length) →
        ∃ os, signAllFast P .xmss sk cs = some os ∧ os.length = cs.length ∧
          ∀ o ∈ os, o.leaves ≤ (p.tree_height - p.bds_k) / 2 + 1 := by
  obtain ⟨H, hH, _⟩ := C12_core_hash P _ oid p (Or.inl hp)
  obtain ⟨k, _, _, _, sk, e, hist⟩ := fast_xmss_history hp hH pk0 sk0 hpk hsk seed hs
  refine ⟨_, _, e, ?_⟩
  intro cs hcs
  obtain ⟨os, e2, hl, hp2⟩ := hist cs hcs
  refine ⟨_, e2, by simp [hl], ?_⟩
  intro o hmem
  obtain ⟨o', hm, rfl⟩ := List.mem_map.mp hmem
  obtain ⟨j, hj, hjo⟩ := List.getElem_of_mem hm
  obtain ⟨o2, e3, post⟩ := hp2 j cs[j] (List.getElem?_eq_getElem (by omega))
  rw [List.getElem?_eq_getElem hj, hjo] at e3
  cases e3
  exact post.work

end Xmss
