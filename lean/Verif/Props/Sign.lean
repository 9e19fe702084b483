import Verif.Props.Basic
import Verif.Proof.Core
import Verif.Props.Wots
import Verif.Props.Params
import Verif.Spec.Keys
/-
C05, C16–C20, C22, C23 (signing), C26, C27, C30: key generation, signing, and histories of signing.
-/
namespace Xmss

variable {P : Prims} {f : Family} {oid : Nat} {p : Params} {H : Bytes → Bytes}

/-- What holds of every accepted OID. -/
theorem Family.facts (hp : f.parse oid = some p) : p.Good ∧ p.sk_bytes = p.index_bytes + 4 * p.n ∧ oid < 2 ^ 8 ∧
    (∃ H, coreHash P p.func p.n = some H) := by
  cases f with
  | xmss =>
    refine ⟨xmss_parse_good hp, (C03_sk_bytes oid p).1 hp, ?_, ?_⟩
    · have := (C02_xmss_oids slowSkBytes oid).mp (by rw [show xmssParseOid slowSkBytes oid = some p from hp]; rfl)
      omega
    · obtain ⟨H, h, _⟩ := C12_core_hash P _ oid p (Or.inl hp); exact ⟨H, h⟩
  | xmssmt =>
    refine ⟨xmssmt_parse_good hp, (C03_sk_bytes oid p).2 hp, ?_, ?_⟩
    · have := (C02_xmssmt_oids slowSkBytes oid).mp (by rw [show xmssmtParseOid slowSkBytes oid = some p from hp]; rfl)
      omega
    · obtain ⟨H, h, _⟩ := C12_core_hash P _ oid p (Or.inr hp); exact ⟨H, h⟩

theorem Family.hash_length (hp : f.parse oid = some p) (hH : coreHash P p.func p.n = some H) :
    ∀ x, (H x).length = p.n := by
  have : ∃ H, coreHash P p.func p.n = some H ∧ ∀ x, (H x).length = p.n := by
    cases f with
    | xmss => exact C12_core_hash P _ oid p (Or.inl hp)
    | xmssmt => exact C12_core_hash P _ oid p (Or.inr hp)
  obtain ⟨H', h, h'⟩ := this
  rw [hH] at h
  cases h
  exact h'

theorem Family.keypair_eq (f : Family) : f.keypair P = apiKeypair P f.parse := by cases f <;> rfl
theorem Family.sign_eq (f : Family) : f.sign P = apiSign P f.parse := by cases f <;> rfl
theorem Family.signOpen_eq (f : Family) : f.signOpen P = apiOpen P f.parse := by cases f <;> rfl

theorem oidBytes_eq (oid : Nat) : oidBytes oid = Rfc.toByte oid 4 := by
  rw [← ullToBytes_eq]
  simp only [oidBytes, ullToBytes, List.nil_append, List.cons_append, ← Nat.shiftRight_add]

theorem toByte_zero (k : Nat) : Rfc.toByte 0 k = List.replicate k 0 := by
  apply List.ext_getElem
  · simp [toByte_length]
  · intro i h1 h2; simp [Rfc.toByte]

theorem readOid_toByte {oid : Nat} (h : oid < 2 ^ 31) (rest : Bytes) :
    readOid (Rfc.toByte oid 4 ++ rest) = some oid := by
  have hh : ((Rfc.toByte oid 4).headD 0).toNat < 128 := by
    have e : (Rfc.toByte oid 4).headD 0 = UInt8.ofNat (oid / 256 ^ 3) := rfl
    rw [e]
    simp only [UInt8.toNat_ofNat']
    omega
  rw [readOid_eq _ _ (toByte_length _ _) hh, toNat_toByte, Nat.mod_eq_of_lt (by omega)]

/-! ### Key generation -/

/-- **C05, C30 (key generation).**  For every accepted OID, all seeds and whatever the key buffers contained, keypair
returns 0 and the keys are exactly `OID || index 0 || SK_SEED || SK_PRF || root || PUB_SEED` and
`OID || root || PUB_SEED`, of the announced sizes, with `root` the root of the RFC hypertree of the seeds. -/
theorem C30_key_layout (hp : f.parse oid = some p) (hH : coreHash P p.func p.n = some H) (pk0 sk0 : Bytes)
    (hpk : pk0.length = 4 + p.pk_bytes) (hsk : sk0.length = 4 + p.sk_bytes) (seed : Nat → Bytes)
    (skSeed skPrf pubSeed : Bytes) (hs : seed p.n = skSeed ++ skPrf ++ pubSeed)
    (h1 : skSeed.length = p.n) (h2 : skPrf.length = p.n) (h3 : pubSeed.length = p.n) :
    ∃ k : Key, k.skSeed = skSeed ∧ k.skPrf = skPrf ∧ k.pubSeed = pubSeed ∧ k.Honest (suiteOf p H) ∧ k.Valid p ∧
      f.keypair P pk0 sk0 oid seed = some (0, k.pk oid, k.sk p oid 0) ∧
      (k.pk oid).length = 4 + p.pk_bytes ∧ (k.sk p oid 0).length = 4 + p.sk_bytes := by
  obtain ⟨g, hskb, _, _⟩ := Family.facts (P := P) hp
  have hHl := Family.hash_length hp hH
  have hroot : ((suiteOf p H).root skSeed pubSeed).length = p.n := treeRoot_length g hHl _ _ _ _
  refine ⟨⟨skSeed, skPrf, (suiteOf p H).root skSeed pubSeed, pubSeed⟩, rfl, rfl, rfl, rfl, ⟨h1, h2, hroot, h3⟩,
    ?_, ?_, ?_⟩
  · have s1 := split3 pk0 4 (2 * p.n)
    have s2 := split3 sk0 4 (p.index_bytes + 4 * p.n)
    have w1 : wr pk0 0 (oidBytes oid) = some (Rfc.toByte oid 4 ++ pk0.drop 4) := by
      rw [oidBytes_eq, wr_some (by rw [toByte_length]; omega), toByte_length]; simp
    have w2 : wr sk0 0 (oidBytes oid) = some (Rfc.toByte oid 4 ++ sk0.drop 4) := by
      rw [oidBytes_eq, wr_some (by rw [toByte_length]; omega), toByte_length]; simp
    have hk := coreSeedKeypair_eq g hHl (pk0.drop 4) (sk0.drop 4) skSeed skPrf pubSeed [] [] []
      (by rw [List.length_drop, hpk, g.pk_eq]; omega) (by rw [List.length_drop, hsk, hskb]; omega) h1 h2 h3
    have t1 : ∀ x : Bytes, (Rfc.toByte oid 4 ++ x).drop oidLen = x := fun x =>
      List.drop_left' (toByte_length _ _)
    have t2 : ∀ x : Bytes, (Rfc.toByte oid 4 ++ x).take oidLen = Rfc.toByte oid 4 := fun x =>
      List.take_left' (toByte_length _ _)
    simp only [List.append_nil] at hk
    rw [Family.keypair_eq, apiKeypair, hp]
    simp only [w1, w2, hH, Option.bind_eq_bind, Option.bind_some, t1, t2, hs, hk, Key.pk, Key.sk, toByte_zero]
  · simp [Key.pk, toByte_length, hroot, h3, g.pk_eq]; omega
  · simp [Key.sk, toByte_length, hroot, h1, h2, h3, hskb]; omega

/-! ### One signature -/

theorem sk_decompose (p : Params) (b : Bytes) (hb : b.length = p.index_bytes + 4 * p.n) :
    ∃ k : Key, k.Valid p ∧ ∃ idx < 256 ^ p.index_bytes,
      b = Rfc.toByte idx p.index_bytes ++ k.skSeed ++ k.skPrf ++ k.root ++ k.pubSeed := by
  obtain ⟨ib, x, rfl, h0, hx⟩ : ∃ ib x : Bytes, b = ib ++ x ∧ ib.length = p.index_bytes ∧ x.length = 4 * p.n :=
    ⟨b.take p.index_bytes, b.drop p.index_bytes, (List.take_append_drop _ _).symm, by simp; omega, by simp; omega⟩
  obtain ⟨a1, x, rfl, h1, hx⟩ : ∃ a y : Bytes, x = a ++ y ∧ a.length = p.n ∧ y.length = 3 * p.n :=
    ⟨x.take p.n, x.drop p.n, (List.take_append_drop _ _).symm, by simp; omega, by simp; omega⟩
  obtain ⟨a2, x, rfl, h2, hx⟩ : ∃ a y : Bytes, x = a ++ y ∧ a.length = p.n ∧ y.length = 2 * p.n :=
    ⟨x.take p.n, x.drop p.n, (List.take_append_drop _ _).symm, by simp; omega, by simp; omega⟩
  obtain ⟨a3, a4, rfl, h3, h4⟩ : ∃ a y : Bytes, x = a ++ y ∧ a.length = p.n ∧ y.length = p.n :=
    ⟨x.take p.n, x.drop p.n, (List.take_append_drop _ _).symm, by simp; omega, by simp; omega⟩
  refine ⟨⟨a1, a2, a3, a4⟩, ⟨h1, h2, h3, h4⟩, Rfc.toNat ib, by rw [← h0]; exact toNat_lt ib, ?_⟩
  rw [← h0, toByte_toNat]
  simp

/-- Index field value after a call in state `idx`. -/
def nextIdx (p : Params) (idx : Nat) : Nat :=
  if idx < 2 ^ p.full_height - 1 then idx + 1
  else if idx = 2 ^ p.full_height - 1 then 2 ^ p.full_height % 256 ^ p.index_bytes
  else 256 ^ p.index_bytes - 1

/-- Key material after a call in state `idx`. -/
def nextKey (p : Params) (idx : Nat) (k : Key) : Key := if idx < 2 ^ p.full_height - 1 then k else Key.zero p

theorem toByte_ff (k : Nat) : List.replicate k (0xFF : UInt8) = Rfc.toByte (256 ^ k - 1) k := by
  apply List.ext_getElem
  · simp [toByte_length]
  · intro i h1 h2
    simp only [List.length_replicate] at h1
    simp only [List.getElem_replicate, Rfc.toByte, List.getElem_map, List.getElem_range]
    apply UInt8.toNat_inj.mp
    simp only [UInt8.toNat_ofNat']
    have e : 256 ^ k = 256 ^ (k - 1 - i) * 256 ^ (i + 1) := by rw [← pow_add]; congr 1; omega
    have hpos : 0 < 256 ^ (k - 1 - i) := by positivity
    have : (256 ^ k - 1) / 256 ^ (k - 1 - i) = 256 ^ (i + 1) - 1 := by
      rw [e]
      have h3 : 0 < 256 ^ (i + 1) := by positivity
      have h4 : 256 ^ (k - 1 - i) * 256 ^ (i + 1) - 1 = 256 ^ (k - 1 - i) * (256 ^ (i + 1) - 1) + (256 ^ (k - 1 - i) - 1) := by
        have := Nat.mul_le_mul_left (256 ^ (k - 1 - i)) h3
        rw [Nat.mul_sub, Nat.mul_one]; omega
      rw [h4, Nat.mul_add_div hpos, Nat.div_eq_of_lt (by omega)]; omega
    rw [this, pow_succ]
    have : 0 < 256 ^ i := by positivity
    show 255 = _
    omega

/-- Complete description of one sign call on any secret key buffer (sizes as announced), any output buffer of at least
`sig_bytes + mlen` bytes. -/
theorem sign_call (hp : f.parse oid = some p) (hH : coreHash P p.func p.n = some H) (k : Key) (hk : k.Valid p)
    (idx : Nat) (hidx : idx < 256 ^ p.index_bytes) (sm : Bytes) (l0 : Nat) (m : Bytes)
    (hsm : p.sig_bytes + m.length ≤ sm.length) :
    f.sign P (k.sk p oid idx) sm l0 m = some
      { ret := if idx < 2 ^ p.full_height then 0 else -2
        sk := (nextKey p idx k).sk p oid (nextIdx p idx)
        sm := (if idx < 2 ^ p.full_height - 1 then
            (suiteOf p H).sign k.skSeed k.skPrf k.root k.pubSeed idx m
          else if idx = 2 ^ p.full_height - 1 then
            List.replicate p.index_bytes 0xFF ++ ((suiteOf p H).sign (List.replicate p.n 0) (List.replicate p.n 0)
              (List.replicate p.n 0) (List.replicate p.n 0) idx m).drop p.index_bytes
          else sm.take p.sig_bytes) ++ m ++ sm.drop (p.sig_bytes + m.length)
        smlen := p.sig_bytes + m.length } := by
  obtain ⟨g, hskb, ho, _⟩ := Family.facts (P := P) hp
  have hHl := Family.hash_length hp hH
  have hc := coreSign_eq g hskb hHl (Rfc.toByte idx p.index_bytes) k.skSeed k.skPrf k.root k.pubSeed
    (sm.take p.sig_bytes) m ((sm.drop p.sig_bytes).take m.length) (sm.drop (p.sig_bytes + m.length)) (toByte_length _ _)
    hk.skSeed hk.skPrf hk.root hk.pubSeed (by simp; omega) (by simp; omega)
  rw [← split3, toNat_toByte, Nat.mod_eq_of_lt hidx] at hc
  have t1 : ∀ x : Bytes, (Rfc.toByte oid 4 ++ x).drop oidLen = x := fun x => List.drop_left' (toByte_length _ _)
  have t2 : ∀ x : Bytes, (Rfc.toByte oid 4 ++ x).take oidLen = Rfc.toByte oid 4 := fun x =>
    List.take_left' (toByte_length _ _)
  rw [Family.sign_eq, apiSign, Key.sk, readOid_toByte (by omega)]
  simp only [Option.bind_eq_bind, Option.bind_some, hp, hH, t1, t2, hc]
  have hpos : 0 < 2 ^ p.full_height := by positivity
  by_cases c1 : idx < 2 ^ p.full_height - 1
  · rw [if_pos c1, if_pos (by omega), if_pos c1, nextKey, if_pos c1, nextIdx, if_pos c1, Key.sk]
  · rw [if_neg c1, if_neg c1, nextKey, if_neg c1, nextIdx, if_neg c1, Key.sk]
    by_cases c2 : idx = 2 ^ p.full_height - 1
    · rw [if_pos c2, if_pos (by omega), if_pos c2, if_pos c2]
      have e : idx + 1 = 2 ^ p.full_height := by omega
      simp only [e, toByte_mod, Key.zero, ← c2]
    · rw [if_neg c2, if_neg (by omega), if_neg c2, if_neg c2]
      simp only [toByte_ff, Key.zero]
      have e : List.replicate (4 * p.n) (0 : UInt8) = List.replicate p.n 0 ++ List.replicate p.n 0 ++ List.replicate p.n 0 ++
          List.replicate p.n 0 := by
        rw [List.replicate_append_replicate, List.replicate_append_replicate, List.replicate_append_replicate]
        congr 1; omega
      rw [e]
      simp

/-! ### C20, C22, C23, C26, C27: single calls -/

theorem Key.sk_surj (hskb : p.sk_bytes = p.index_bytes + 4 * p.n) (sk : Bytes) (hsk : sk.length = 4 + p.sk_bytes)
    (hoid : sk.take 4 = Rfc.toByte oid 4) :
    ∃ k : Key, k.Valid p ∧ ∃ idx < 256 ^ p.index_bytes, sk = k.sk p oid idx := by
  obtain ⟨k, hk, idx, hi, h⟩ := sk_decompose p (sk.drop 4) (by simp [hsk, hskb])
  refine ⟨k, hk, idx, hi, ?_⟩
  rw [Key.sk, ← h, ← hoid, List.take_append_drop]

/-- **C20.**  Sign never leaves its buffers: for every secret key buffer of the announced size that starts with an
accepted OID, whatever the rest contains (also exhausted, deleted or corrupted keys), and every output buffer of at
least `sig_bytes + mlen` bytes, the call is defined; it keeps the buffer sizes and does not touch the output buffer
behind `sig_bytes + mlen` bytes. -/
theorem C20_sign_safe (hp : f.parse oid = some p) (sk sm : Bytes) (l0 : Nat) (m : Bytes)
    (hsk : sk.length = 4 + p.sk_bytes) (hoid : sk.take 4 = Rfc.toByte oid 4) (hsm : p.sig_bytes + m.length ≤ sm.length) :
    ∃ o, f.sign P sk sm l0 m = some o ∧ o.sk.length = sk.length ∧ o.sm.length = sm.length ∧
      o.sm.drop (p.sig_bytes + m.length) = sm.drop (p.sig_bytes + m.length) := by
  obtain ⟨g, hskb, ho, H, hH⟩ := Family.facts (P := P) hp
  have hHl := Family.hash_length hp hH
  obtain ⟨k, hk, idx, hi, rfl⟩ := Key.sk_surj hskb sk hsk hoid
  have hl : ∀ (a : Bytes), a.length = p.sig_bytes →
      (a ++ m ++ sm.drop (p.sig_bytes + m.length)).length = sm.length ∧
      (a ++ m ++ sm.drop (p.sig_bytes + m.length)).drop (p.sig_bytes + m.length) = sm.drop (p.sig_bytes + m.length) := by
    intro a ha
    constructor
    · simp [ha]; omega
    · exact List.drop_left' (by simp [ha])
  have hl2 := hl _ (show (if idx < 2 ^ p.full_height - 1 then
            (suiteOf p H).sign k.skSeed k.skPrf k.root k.pubSeed idx m
          else if idx = 2 ^ p.full_height - 1 then
            List.replicate p.index_bytes 0xFF ++ ((suiteOf p H).sign (List.replicate p.n 0) (List.replicate p.n 0)
              (List.replicate p.n 0) (List.replicate p.n 0) idx m).drop p.index_bytes
          else sm.take p.sig_bytes).length = p.sig_bytes by
    split
    · exact sign_length g hHl _ _ _ _ _ _
    · split
      · rw [List.length_append, List.length_drop, sign_length g hHl, List.length_replicate]
        have := g.sig_eq; omega
      · simp; omega)
  refine ⟨_, sign_call hp hH k hk idx hi sm l0 m hsm, ?_, hl2.1, hl2.2⟩
  simp only [nextKey]
  split
  · simp [Key.sk, toByte_length]
  · simp [Key.sk, toByte_length, Key.zero, hk.skSeed, hk.skPrf, hk.root, hk.pubSeed]; omega

/-- **C22, C23 (signing), C26.**  A call on a key whose index is below `2^h - 1` returns 0; the output is exactly the
RFC 8391 signature followed by the message, `*smlen` is `sig_bytes + mlen`, and the only change in the secret key is
that the index is incremented by one.  Nothing depends on the previous contents of the output buffer. -/
theorem C23_sign_is_rfc (hp : f.parse oid = some p) (hH : coreHash P p.func p.n = some H) (k : Key) (hk : k.Valid p)
    (idx : Nat) (hidx : idx < 2 ^ p.full_height - 1) (sm : Bytes) (l0 : Nat) (m : Bytes)
    (hsm : sm.length = p.sig_bytes + m.length) :
    f.sign P (k.sk p oid idx) sm l0 m = some
      { ret := 0
        sk := k.sk p oid (idx + 1)
        sm := (suiteOf p H).sign k.skSeed k.skPrf k.root k.pubSeed idx m ++ m
        smlen := p.sig_bytes + m.length } := by
  obtain ⟨g, hskb, ho, _⟩ := Family.facts (P := P) hp
  have := g.idx_fits
  rw [sign_call hp hH k hk idx (by omega) sm l0 m hsm.ge]
  simp only [if_pos hidx, nextKey, nextIdx, if_pos (show idx < 2 ^ p.full_height by omega)]
  rw [List.drop_of_length_le hsm.le, List.append_nil]

/-- The message signed by WOTS on layer `i`: the message digest on layer 0, and the root of the tree below otherwise. -/
def signedOnLayer (S : Rfc.Suite) (skSeed pubSeed M : Bytes) (idx : Nat) : Nat → Bytes
  | 0 => M
  | i + 1 => S.treeRoot skSeed pubSeed i (idx / 2 ^ (S.hp * (i + 1)))

/-- What a signature contains for layer `i`: a WOTS signature and the authentication path of the leaf used. -/
def layerPart (S : Rfc.Suite) (skSeed pubSeed M : Bytes) (idx i : Nat) : Bytes :=
  let tree := idx / 2 ^ (S.hp * (i + 1))
  let leaf := idx / 2 ^ (S.hp * i) % 2 ^ S.hp
  (S.wotsSig skSeed pubSeed (signedOnLayer S skSeed pubSeed M idx i) i tree leaf).flatten ++
    (S.authPath skSeed pubSeed i tree leaf).flatten

theorem spec_signLayers_parts (S : Rfc.Suite) (skSeed pubSeed M : Bytes) (idx : Nat) : ∀ k l,
    S.signLayers skSeed pubSeed k l (idx / 2 ^ (S.hp * l)) (signedOnLayer S skSeed pubSeed M idx l) =
      ((List.range k).map fun i => layerPart S skSeed pubSeed M idx (l + i)).flatten := by
  intro k
  induction k with
  | zero => intro l; rfl
  | succ k ih =>
    intro l
    have e : idx / 2 ^ (S.hp * l) / 2 ^ S.hp = idx / 2 ^ (S.hp * (l + 1)) := by
      rw [Nat.div_div_eq_div_mul, ← pow_add]; rfl
    have h := ih (l + 1)
    rw [signedOnLayer] at h
    rw [Rfc.Suite.signLayers, List.range_succ_eq_map]
    simp only [e, h, List.map_cons, List.map_map, List.flatten_cons, layerPart, Nat.add_zero, List.append_assoc]
    congr 4
    funext i
    simp only [Function.comp, Nat.succ_eq_add_one, show l + 1 + i = l + (i + 1) by omega]

/-- **C22.**  The output of a successful call: index, R = PRF(SK_PRF, index), then for every layer WOTS signature and
authentication path, then the message. -/
theorem C22_signature_format (hp : f.parse oid = some p) (hH : coreHash P p.func p.n = some H) (k : Key)
    (hk : k.Valid p) (idx : Nat) (hidx : idx < 2 ^ p.full_height - 1) (sm : Bytes) (l0 : Nat) (m : Bytes)
    (hsm : sm.length = p.sig_bytes + m.length) :
    let S := suiteOf p H
    let R := S.PRF k.skPrf (Rfc.toByte idx 32)
    ∃ o, f.sign P (k.sk p oid idx) sm l0 m = some o ∧ o.ret = 0 ∧ o.smlen = p.sig_bytes + m.length ∧
      o.sm = Rfc.toByte idx p.index_bytes ++ R ++
        ((List.range p.d).map fun i => layerPart S k.skSeed k.pubSeed (S.digest R k.root idx m) idx i).flatten ++ m ∧
      R.length = p.n ∧
      ∀ i < p.d, (layerPart S k.skSeed k.pubSeed (S.digest R k.root idx m) idx i).length =
        p.wots_sig_bytes + p.tree_height * p.n := by
  intro S R
  obtain ⟨g, hskb, ho, _⟩ := Family.facts (P := P) hp
  have hHl := Family.hash_length hp hH
  refine ⟨_, C23_sign_is_rfc hp hH k hk idx hidx sm l0 m hsm, rfl, rfl, ?_, hHl _, ?_⟩
  · have h := spec_signLayers_parts S k.skSeed k.pubSeed (S.digest R k.root idx m) idx p.d 0
    simp only [Nat.mul_zero, pow_zero, Nat.div_one, signedOnLayer, Nat.zero_add] at h
    rw [← h]
    rfl
  · intro i _
    rw [layerPart, List.length_append, wotsSig_flat_length g hHl, authPath_flat_length g hHl, g.sig_wots]

/-- **C26.**  The key values and the OID in the secret key are unchanged, the stored index is incremented by one. -/
theorem C26_only_index_changes (hp : f.parse oid = some p) (k : Key)
    (hk : k.Valid p) (idx : Nat) (hidx : idx < 2 ^ p.full_height - 1) (sm : Bytes) (l0 : Nat) (m : Bytes)
    (hsm : sm.length = p.sig_bytes + m.length) :
    ∃ o, f.sign P (k.sk p oid idx) sm l0 m = some o ∧ o.ret = 0 ∧
      o.sk.take 4 = (k.sk p oid idx).take 4 ∧
      o.sk.drop (4 + p.index_bytes) = (k.sk p oid idx).drop (4 + p.index_bytes) ∧
      Rfc.toNat ((o.sk.drop 4).take p.index_bytes) = Rfc.toNat (((k.sk p oid idx).drop 4).take p.index_bytes) + 1 := by
  obtain ⟨g, hskb, ho, H, hH⟩ := Family.facts (P := P) hp
  have := g.idx_fits
  refine ⟨_, C23_sign_is_rfc hp hH k hk idx hidx sm l0 m hsm, rfl, ?_, ?_, ?_⟩
  · simp only [Key.sk]
    rw [List.take_left' (toByte_length _ _), List.take_left' (toByte_length _ _)]
  · simp only [Key.sk, ← List.drop_drop, List.append_assoc]
    rw [List.drop_left' (toByte_length _ _), List.drop_left' (toByte_length _ _), List.drop_left' (toByte_length _ _),
      List.drop_left' (toByte_length _ _)]
  · simp only [Key.sk, List.append_assoc]
    rw [List.drop_left' (toByte_length _ _), List.drop_left' (toByte_length _ _), List.take_left' (toByte_length _ _),
      List.take_left' (toByte_length _ _), toNat_toByte, toNat_toByte, Nat.mod_eq_of_lt (by omega),
      Nat.mod_eq_of_lt (by omega)]

/-- **C27.**  Signing is a function of secret key bytes and message alone: whatever two output buffers and old `*smlen`
are passed, return value, new secret key, `*smlen` agree, and when the call returns 0 so do the output bytes. -/
theorem C27_deterministic (hp : f.parse oid = some p) (sk sm sm' : Bytes) (l0 l0' : Nat) (m : Bytes)
    (hsk : sk.length = 4 + p.sk_bytes) (hoid : sk.take 4 = Rfc.toByte oid 4)
    (hsm : p.sig_bytes + m.length ≤ sm.length) (hsm' : p.sig_bytes + m.length ≤ sm'.length) :
    ∃ o o', f.sign P sk sm l0 m = some o ∧ f.sign P sk sm' l0' m = some o' ∧
      o.ret = o'.ret ∧ o.sk = o'.sk ∧ o.smlen = o'.smlen ∧
      (o.ret = 0 → o.sm.take o.smlen = o'.sm.take o'.smlen) := by
  obtain ⟨g, hskb, ho, H, hH⟩ := Family.facts (P := P) hp
  have hHl := Family.hash_length hp hH
  obtain ⟨k, hk, idx, hi, rfl⟩ := Key.sk_surj hskb sk hsk hoid
  refine ⟨_, _, sign_call hp hH k hk idx hi sm l0 m hsm, sign_call hp hH k hk idx hi sm' l0' m hsm', rfl, rfl, rfl, ?_⟩
  intro hret
  have hlt : idx < 2 ^ p.full_height := by
    by_contra hc
    simp [hc] at hret
  have tk : ∀ a b c : Bytes, a.length = p.sig_bytes → b = m →
      (a ++ b ++ c).take (p.sig_bytes + m.length) = a ++ b := by
    intro a b c ha hb
    exact List.take_left' (by simp [ha, hb])
  simp only []
  by_cases c1 : idx < 2 ^ p.full_height - 1
  · rw [if_pos c1, if_pos c1, tk _ _ _ (sign_length g hHl _ _ _ _ _ _) rfl, tk _ _ _ (sign_length g hHl _ _ _ _ _ _) rfl]
  · have hl : (List.replicate p.index_bytes 0xFF ++ ((suiteOf p H).sign (List.replicate p.n 0) (List.replicate p.n 0)
              (List.replicate p.n 0) (List.replicate p.n 0) idx m).drop p.index_bytes).length = p.sig_bytes := by
      rw [List.length_append, List.length_drop, sign_length g hHl, List.length_replicate]
      have := g.sig_eq; omega
    have c2 : idx = 2 ^ p.full_height - 1 := by omega
    rw [if_neg c1, if_neg c1, if_pos c2, if_pos c2, tk _ _ _ hl rfl, tk _ _ _ hl rfl]

-- Non-vacuity of the hypotheses: XMSSMT-SHA2_20/4_256, index 7.
example : ∃ p, Family.xmssmt.parse 2 = some p ∧ (7 : Nat) < 2 ^ p.full_height - 1 ∧ (Key.zero p).Valid p :=
  ⟨_, rfl, by decide, ⟨by simp [Key.zero], by simp [Key.zero], by simp [Key.zero], by simp [Key.zero]⟩⟩

end Xmss
