import Verif.Props.Open
/-
C05, C16–C19, C29, C46, C47: histories of signing on one key, and what verification makes of them.
-/
namespace Xmss

variable {P : Prims} {f : Family} {oid : Nat} {p : Params} {H : Bytes → Bytes}

/-- Every call of a history gets an output buffer of exactly `sig_bytes + mlen` bytes. -/
def Sized (p : Params) (cs : List Call) : Prop := ∀ c ∈ cs, c.sm.length = p.sig_bytes + c.msg.length

/-- Signature of the deleted key: what the code outputs at the last index. -/
def lastSig (p : Params) (H : Bytes → Bytes) (m : Bytes) : Bytes :=
  List.replicate p.index_bytes 0xFF ++ ((suiteOf p H).sign (List.replicate p.n 0) (List.replicate p.n 0)
    (List.replicate p.n 0) (List.replicate p.n 0) (2 ^ p.full_height - 1) m).drop p.index_bytes

/-- Outcome of call `c` when the key state is `(idx, k)`. -/
def outcome (p : Params) (H : Bytes → Bytes) (oid : Nat) (st : Nat × Key) (c : Call) : SignOut :=
  { ret := if st.1 < 2 ^ p.full_height then 0 else -2
    sk := (nextKey p st.1 st.2).sk p oid (nextIdx p st.1)
    sm := (if st.1 < 2 ^ p.full_height - 1 then
        (suiteOf p H).sign st.2.skSeed st.2.skPrf st.2.root st.2.pubSeed st.1 c.msg
      else if st.1 = 2 ^ p.full_height - 1 then lastSig p H c.msg else c.sm.take p.sig_bytes) ++ c.msg
    smlen := p.sig_bytes + c.msg.length }

/-- Key state after `n` calls. -/
def stateAfter (p : Params) (st : Nat × Key) : Nat → Nat × Key
  | 0 => st
  | n + 1 => let s := stateAfter p st n; (nextIdx p s.1, nextKey p s.1 s.2)

theorem stateAfter_succ' (p : Params) (st : Nat × Key) (n : Nat) :
    stateAfter p st (n + 1) = stateAfter p (nextIdx p st.1, nextKey p st.1 st.2) n := by
  induction n with
  | zero => rfl
  | succ n ih => rw [stateAfter, ih]; rfl

theorem Key.zero_valid (p : Params) : (Key.zero p).Valid p :=
  ⟨by simp [Key.zero], by simp [Key.zero], by simp [Key.zero], by simp [Key.zero]⟩

theorem nextKey_valid {k : Key} (hk : k.Valid p) (idx : Nat) : (nextKey p idx k).Valid p := by
  unfold nextKey; split
  · exact hk
  · exact Key.zero_valid p

theorem nextIdx_lt (g : p.Good) {idx : Nat} : nextIdx p idx < 256 ^ p.index_bytes := by
  have := g.idx_fits
  have h : 0 < 256 ^ p.index_bytes := by positivity
  unfold nextIdx
  split
  · omega
  · split
    · exact Nat.mod_lt _ h
    · omega

/-- Every history from a well formed key is defined, and call number `j` has the outcome of the state after `j` calls. -/
theorem signAll_eq (hp : f.parse oid = some p) (hH : coreHash P p.func p.n = some H) : ∀ (cs : List Call) (idx : Nat)
    (k : Key), k.Valid p → idx < 256 ^ p.index_bytes → Sized p cs →
    signAll P f (k.sk p oid idx) cs = some (cs.mapIdx fun j c => outcome p H oid (stateAfter p (idx, k) j) c) := by
  obtain ⟨g, hskb, ho, _⟩ := Family.facts (P := P) hp
  intro cs
  induction cs with
  | nil => intro idx k _ _ _; rfl
  | cons c cs ih =>
    intro idx k hk hidx hs
    have hc := hs c (by simp)
    have h1 : f.sign P (k.sk p oid idx) c.sm c.smlen0 c.msg = some (outcome p H oid (idx, k) c) := by
      rw [sign_call hp hH k hk idx hidx c.sm c.smlen0 c.msg hc.ge, List.drop_of_length_le hc.le, List.append_nil,
        outcome]
      by_cases c2 : idx = 2 ^ p.full_height - 1
      · simp [c2, lastSig]
      · simp only [if_neg c2]
    rw [signAll, h1]
    simp only [Option.bind_eq_bind, Option.bind_some]
    have e : (outcome p H oid (idx, k) c).sk = (nextKey p idx k).sk p oid (nextIdx p idx) := rfl
    rw [e, ih _ _ (nextKey_valid hk idx) (nextIdx_lt g) fun c' h' => hs c' (by simp [h'])]
    simp only [Option.bind_some, List.mapIdx_cons, stateAfter_succ', Option.some.injEq]
    rfl

theorem stateAfter_lt {k : Key} : ∀ n ≤ 2 ^ p.full_height - 1, stateAfter p (0, k) n = (n, k) := by
  intro n
  induction n with
  | zero => intro _; rfl
  | succ n ih =>
    intro hn
    rw [stateAfter, ih (by omega)]
    simp only [nextIdx, nextKey, if_pos (show n < 2 ^ p.full_height - 1 by omega)]

theorem stateAfter_last {k : Key} :
    stateAfter p (0, k) (2 ^ p.full_height) = (2 ^ p.full_height % 256 ^ p.index_bytes, Key.zero p) := by
  have hpos : 0 < 2 ^ p.full_height := by positivity
  have e : 2 ^ p.full_height = 2 ^ p.full_height - 1 + 1 := by omega
  conv_lhs => rw [e]
  rw [stateAfter, stateAfter_lt _ (Nat.le_refl _)]
  simp [nextIdx, nextKey]

theorem stateAfter_after (hw : 2 ^ p.full_height < 256 ^ p.index_bytes) {k : Key} : ∀ n, 
    2 ^ p.full_height ≤ (stateAfter p (0, k) (2 ^ p.full_height + n)).1 ∧
    (stateAfter p (0, k) (2 ^ p.full_height + n)).2 = Key.zero p := by
  intro n
  induction n with
  | zero =>
    rw [Nat.add_zero, stateAfter_last, Nat.mod_eq_of_lt hw]
    exact ⟨Nat.le_refl _, rfl⟩
  | succ n ih =>
    rw [← Nat.add_assoc, stateAfter]
    set s := stateAfter p (0, k) (2 ^ p.full_height + n)
    have hpos : 0 < 2 ^ p.full_height := by positivity
    simp only [nextIdx, nextKey, if_neg (show ¬ s.1 < 2 ^ p.full_height - 1 by omega),
      if_neg (show ¬ s.1 = 2 ^ p.full_height - 1 by omega)]
    exact ⟨by omega, trivial⟩

/-- The result of running key generation on an accepted OID: the only way honest keys arise. -/
theorem keypair_key (hp : f.parse oid = some p) (hH : coreHash P p.func p.n = some H) (pk0 sk0 : Bytes)
    (hpk : pk0.length = 4 + p.pk_bytes) (hsk : sk0.length = 4 + p.sk_bytes) (seed : Nat → Bytes)
    (hs : (seed p.n).length = 3 * p.n) : ∃ k : Key, k.Valid p ∧ k.Honest (suiteOf p H) ∧
      seed p.n = k.skSeed ++ k.skPrf ++ k.pubSeed ∧
      f.keypair P pk0 sk0 oid seed = some (0, k.pk oid, k.sk p oid 0) := by
  obtain ⟨a, b, c, e, h1, h2, h3⟩ : ∃ a b c : Bytes, seed p.n = a ++ b ++ c ∧ a.length = p.n ∧ b.length = p.n ∧
      c.length = p.n :=
    ⟨(seed p.n).take p.n, ((seed p.n).drop p.n).take p.n, (seed p.n).drop (p.n + p.n), split3 _ _ _,
      by simp; omega, by simp; omega, by simp; omega⟩
  obtain ⟨k, e1, e2, e3, hh, hv, hk, _⟩ := C30_key_layout hp hH pk0 sk0 hpk hsk seed a b c e h1 h2 h3
  exact ⟨k, hv, hh, by rw [e1, e2, e3, e], hk⟩

/-! ### C05 -/

/-- **C05.**  Both keys start with the big-endian OID given to key generation; this is the OID that sign and open read
back; and no signature in any history changes it. -/
theorem C05_oid_in_keys (hp : f.parse oid = some p) (pk0 sk0 : Bytes) (hpk : pk0.length = 4 + p.pk_bytes)
    (hsk : sk0.length = 4 + p.sk_bytes) (seed : Nat → Bytes) (hs : (seed p.n).length = 3 * p.n) :
    ∃ pk sk, f.keypair P pk0 sk0 oid seed = some (0, pk, sk) ∧
      pk.take 4 = Rfc.toByte oid 4 ∧ sk.take 4 = Rfc.toByte oid 4 ∧
      readOid pk = some oid ∧ readOid sk = some oid ∧
      ∀ cs, Sized p cs → ∃ outs, signAll P f sk cs = some outs ∧
        ∀ o ∈ outs, o.sk.take 4 = sk.take 4 ∧ readOid o.sk = some oid := by
  obtain ⟨g, hskb, ho, H, hH⟩ := Family.facts (P := P) hp
  obtain ⟨k, hv, hh, _, hk⟩ := keypair_key hp hH pk0 sk0 hpk hsk seed hs
  have t : ∀ x : Bytes, (Rfc.toByte oid 4 ++ x).take 4 = Rfc.toByte oid 4 := fun x => List.take_left' (toByte_length _ _)
  refine ⟨_, _, hk, t _, t _, readOid_toByte (by omega) _, readOid_toByte (by omega) _, ?_⟩
  intro cs hcs
  refine ⟨_, signAll_eq hp hH cs 0 k hv (by positivity) hcs, ?_⟩
  intro o hmem
  obtain ⟨j, hj, rfl⟩ := List.mem_mapIdx.mp hmem
  refine ⟨?_, readOid_toByte (by omega) _⟩
  rw [show (k.sk p oid 0).take 4 = Rfc.toByte oid 4 from t _]
  exact t _

/-! ### C16 -/

/-- **C16.**  After key generation from any seeds, in any history of at most `2^h - 1` sign calls on any messages, every
call returns 0, and opening its output with the public key, into any buffer, returns 0, the message and its length. -/
theorem C16_completeness (hp : f.parse oid = some p) (pk0 sk0 : Bytes) (hpk : pk0.length = 4 + p.pk_bytes)
    (hsk : sk0.length = 4 + p.sk_bytes) (seed : Nat → Bytes) (hs : (seed p.n).length = 3 * p.n) :
    ∃ pk sk, f.keypair P pk0 sk0 oid seed = some (0, pk, sk) ∧
      ∀ cs, Sized p cs → cs.length ≤ 2 ^ p.full_height - 1 → (∀ c ∈ cs, p.sig_bytes + c.msg.length < 2 ^ 64) →
      ∃ outs, signAll P f sk cs = some outs ∧ outs.length = cs.length ∧
        ∀ (j : Nat) (o : SignOut) (c : Call), outs[j]? = some o → cs[j]? = some c → o.ret = 0 ∧
          o.smlen = p.sig_bytes + c.msg.length ∧
          ∀ (m : Bytes) (l0 : Nat), p.sig_bytes + c.msg.length ≤ m.length →
            ∃ r, f.signOpen P m l0 o.sm o.smlen pk = some r ∧ r.ret = 0 ∧ r.mlen = c.msg.length ∧
              r.m.take r.mlen = c.msg := by
  obtain ⟨g, hskb, ho, H, hH⟩ := Family.facts (P := P) hp
  have hHl := Family.hash_length hp hH
  obtain ⟨k, hv, hh, _, hk⟩ := keypair_key hp hH pk0 sk0 hpk hsk seed hs
  refine ⟨_, _, hk, ?_⟩
  intro cs hcs hlen h64
  refine ⟨_, signAll_eq hp hH cs 0 k hv (by positivity) hcs, by simp, ?_⟩
  intro j o c hj hc
  have hjl : j < cs.length := (List.getElem?_eq_some_iff.mp hc).1
  have hcmem : c ∈ cs := List.mem_of_getElem? hc
  rw [List.getElem?_mapIdx, hc, Option.map_some, Option.some.injEq, stateAfter_lt _ (by omega)] at hj
  have hjlt : j < 2 ^ p.full_height - 1 := by omega
  have e1 : o.sm = (suiteOf p H).sign k.skSeed k.skPrf k.root k.pubSeed j c.msg ++ c.msg := by
    rw [← hj]; simp only [outcome, if_pos hjlt]
  have e2 : o.smlen = p.sig_bytes + c.msg.length := by rw [← hj]; rfl
  have e3 : o.ret = 0 := by
    rw [← hj]; simp only [outcome, if_pos (show j < 2 ^ p.full_height by omega)]
  refine ⟨e3, e2, ?_⟩
  intro m l0 hm
  have hsl := sign_length g hHl k.skSeed k.skPrf k.root k.pubSeed j c.msg
  obtain ⟨r, h1, h2, h3⟩ := C23_open_is_rfc hp hH k hv.root hv.pubSeed _ c.msg m l0 hsl (h64 c hcmem) hm
  obtain ⟨r', h1', h4⟩ := C24_open_output (P := P) hp k hv.root hv.pubSeed _ c.msg m l0 hsl (h64 c hcmem) hm
  rw [h1] at h1'
  cases h1'
  have hver : r.ret = 0 := by
    rw [h3, Rfc.Suite.verify, verifyRoot_sign g hHl _ _ _ _ _ _ (by have := g.idx_fits; omega),
      Nat.div_eq_of_lt (by omega), hh]
    rfl
  refine ⟨r, by rw [e1, e2]; exact h1, hver, ?_⟩
  rcases h4 with ⟨_, h5, h6⟩ | ⟨h5, _⟩
  · exact ⟨h5, by rw [h5]; exact h6⟩
  · rw [hver] at h5; cases h5

/-! ### C17 -/

/-- **C17 (refuted).**  Signing with the last index returns 0, but the signature does not depend on the key at all: two
different keys of the same parameter set produce the same bytes for the same message (the key is deleted before it is
used), namely those of the all-zero key with index bytes 0xFF. -/
theorem C17_last_signature_ignores_key (hp : f.parse oid = some p) (k k' : Key) (hk : k.Valid p) (hk' : k'.Valid p)
    (sm : Bytes) (l0 : Nat) (m : Bytes) (hsm : sm.length = p.sig_bytes + m.length) :
    ∃ o, f.sign P (k.sk p oid (2 ^ p.full_height - 1)) sm l0 m = some o ∧ o.ret = 0 ∧
      f.sign P (k'.sk p oid (2 ^ p.full_height - 1)) sm l0 m = some o ∧
      o.sm.take p.index_bytes = List.replicate p.index_bytes 0xFF := by
  obtain ⟨g, hskb, ho, H, hH⟩ := Family.facts (P := P) hp
  have hfit := g.idx_fits
  have hpos : 0 < 2 ^ p.full_height := by positivity
  refine ⟨_, sign_call hp hH k hk _ (by omega) sm l0 m hsm.ge, ?_, ?_, ?_⟩
  · simp only [if_pos (show 2 ^ p.full_height - 1 < 2 ^ p.full_height by omega)]
  · rw [sign_call hp hH k' hk' _ (by omega) sm l0 m hsm.ge]
    simp [nextKey]
  · simp

/-- If the claim C17 held for all keys, the signature scheme would be broken outright: one byte string, computable
without any key, would be accepted for the message under **every** honest public key of the parameter set. -/
theorem C17_would_be_universal_forgery (hp : f.parse oid = some p) (m mbuf : Bytes) (l0 : Nat)
    (hC17 : ∀ (H : Bytes → Bytes) (k : Key), coreHash P p.func p.n = some H → k.Valid p → k.Honest (suiteOf p H) →
      ∀ (sm : Bytes) (o : SignOut), sm.length = p.sig_bytes + m.length →
        f.sign P (k.sk p oid (2 ^ p.full_height - 1)) sm 0 m = some o →
        ∃ r, f.signOpen P mbuf l0 o.sm o.smlen (k.pk oid) = some r ∧ r.ret = 0) :
    ∃ forgery : Bytes, ∃ H, coreHash P p.func p.n = some H ∧ ∀ k : Key, k.Valid p → k.Honest (suiteOf p H) →
      ∃ r, f.signOpen P mbuf l0 (forgery ++ m) (p.sig_bytes + m.length) (k.pk oid) = some r ∧ r.ret = 0 := by
  obtain ⟨g, hskb, ho, H, hH⟩ := Family.facts (P := P) hp
  have hfit := g.idx_fits
  have hpos : 0 < 2 ^ p.full_height := by positivity
  refine ⟨lastSig p H m, H, hH, ?_⟩
  intro k hk hh
  have hsm : (List.replicate (p.sig_bytes + m.length) (0 : UInt8)).length = p.sig_bytes + m.length := by simp
  have h1 := sign_call hp hH k hk (2 ^ p.full_height - 1) (by omega) _ 0 m hsm.ge
  have h2 := hC17 H k hH hk hh _ _ hsm h1
  rw [List.drop_of_length_le hsm.le] at h2
  simpa [lastSig] using h2

/-! ### C18, C19 -/

/-- **C18 (first 2^h - 1 signatures, every parameter set).**  From key generation on, call number `j` (counting from 0)
of any history carries exactly the index `j`, and therefore different calls carry different indices. -/
theorem C18_indices_in_order_partial (hp : f.parse oid = some p) (k : Key) (hk : k.Valid p) (cs : List Call)
    (hcs : Sized p cs) (hlen : cs.length ≤ 2 ^ p.full_height - 1) :
    ∃ outs, signAll P f (k.sk p oid 0) cs = some outs ∧ outs.length = cs.length ∧
      ∀ (j : Nat) (o : SignOut), outs[j]? = some o → o.ret = 0 ∧ o.sm.take p.index_bytes = Rfc.toByte j p.index_bytes ∧
        Rfc.toNat (o.sm.take p.index_bytes) = j := by
  obtain ⟨g, hskb, ho, H, hH⟩ := Family.facts (P := P) hp
  have hfit := g.idx_fits
  refine ⟨_, signAll_eq hp hH cs 0 k hk (by positivity) hcs, by simp, ?_⟩
  intro j o hj
  rw [List.getElem?_mapIdx] at hj
  obtain ⟨c, hc, rfl⟩ := Option.map_eq_some_iff.mp hj
  have hjl : j < cs.length := (List.getElem?_eq_some_iff.mp hc).1
  have hjlt : j < 2 ^ p.full_height - 1 := by omega
  rw [stateAfter_lt _ (by omega)]
  have e : (outcome p H oid (j, k) c).sm.take p.index_bytes = Rfc.toByte j p.index_bytes := by
    simp only [outcome, if_pos hjlt, Rfc.Suite.sign, List.append_assoc]
    exact List.take_left' (toByte_length _ _)
  refine ⟨by simp only [outcome, if_pos (show j < 2 ^ p.full_height by omega)], e, ?_⟩
  rw [e, toNat_toByte, Nat.mod_eq_of_lt (by omega)]

/-- The parameter sets whose index field can hold the value `2^h`: all except those with `h = 8 * index_bytes`. -/
def IndexFieldHasRoom (p : Params) : Prop := 2 ^ p.full_height < 256 ^ p.index_bytes

/-- Which OIDs those are: every one except the XMSS^MT sets of height 40. -/
theorem indexFieldHasRoom_iff (hp : f.parse oid = some p) : IndexFieldHasRoom p ↔ p.full_height ≠ 40 := by
  unfold IndexFieldHasRoom
  cases f with
  | xmss =>
    obtain ⟨e, he, _, rfl⟩ := xmss_parse_entry hp
    have : ∀ e ∈ Registry.xmss, (2 ^ e.h < 256 ^ (if e.d = 1 then 4 else (e.h + 7) / 8) ↔ e.h ≠ 40) := by decide +kernel
    exact this e he
  | xmssmt =>
    obtain ⟨e, he, _, rfl⟩ := xmssmt_parse_entry hp
    have : ∀ e ∈ Registry.xmssmt, (2 ^ e.h < 256 ^ (if e.d = 1 then 4 else (e.h + 7) / 8) ↔ e.h ≠ 40) := by
      decide +kernel
    exact this e he

/-- **C18 (histories of any length).**  When the index field has room (all sets except height 40), in a history of any
length the successful calls are exactly the first `2^h`; call `j < 2^h - 1` carries index `j`, the last one carries
the index bytes 0xFF..FF (and signs with the deleted key); no two successful signatures carry the same index. -/
theorem C18_no_index_reuse (hp : f.parse oid = some p) (hroom : p.full_height ≠ 40) (k : Key) (hk : k.Valid p)
    (cs : List Call) (hcs : Sized p cs) :
    ∃ outs, signAll P f (k.sk p oid 0) cs = some outs ∧ outs.length = cs.length ∧
      (∀ (j : Nat) (o : SignOut), outs[j]? = some o → (o.ret = 0 ↔ j < 2 ^ p.full_height) ∧
        (j < 2 ^ p.full_height - 1 → o.sm.take p.index_bytes = Rfc.toByte j p.index_bytes) ∧
        (j = 2 ^ p.full_height - 1 → o.sm.take p.index_bytes = List.replicate p.index_bytes 0xFF)) ∧
      ∀ (i j : Nat) (a b : SignOut), outs[i]? = some a → outs[j]? = some b → a.ret = 0 → b.ret = 0 → i ≠ j →
        a.sm.take p.index_bytes ≠ b.sm.take p.index_bytes := by
  obtain ⟨g, hskb, ho, H, hH⟩ := Family.facts (P := P) hp
  have hfit := g.idx_fits
  have hr : 2 ^ p.full_height < 256 ^ p.index_bytes := (indexFieldHasRoom_iff hp).mpr hroom
  have hpos : 0 < 2 ^ p.full_height := by positivity
  have main : ∀ (j : Nat) (o : SignOut),
      (cs.mapIdx fun j c => outcome p H oid (stateAfter p (0, k) j) c)[j]? = some o →
        (o.ret = 0 ↔ j < 2 ^ p.full_height) ∧
        (j < 2 ^ p.full_height - 1 → o.sm.take p.index_bytes = Rfc.toByte j p.index_bytes) ∧
        (j = 2 ^ p.full_height - 1 → o.sm.take p.index_bytes = List.replicate p.index_bytes 0xFF) := by
    intro j o hj
    rw [List.getElem?_mapIdx] at hj
    obtain ⟨c, hc, rfl⟩ := Option.map_eq_some_iff.mp hj
    by_cases hjl : j < 2 ^ p.full_height
    · rw [stateAfter_lt _ (by omega)]
      refine ⟨by simp [outcome, hjl], ?_, ?_⟩
      · intro hjlt
        simp only [outcome, if_pos hjlt, Rfc.Suite.sign, List.append_assoc]
        exact List.take_left' (toByte_length _ _)
      · intro hje
        simp only [outcome, if_neg (show ¬ j < 2 ^ p.full_height - 1 by omega), if_pos hje, lastSig, List.append_assoc]
        exact List.take_left' (by simp)
    · have h := stateAfter_after hr (k := k) (j - 2 ^ p.full_height)
      rw [Nat.add_sub_cancel' (by omega)] at h
      refine ⟨?_, by omega, by omega⟩
      simp only [outcome, if_neg (show ¬ (stateAfter p (0, k) j).1 < 2 ^ p.full_height by omega)]
      simp [hjl]
  refine ⟨_, signAll_eq hp hH cs 0 k hk (by positivity) hcs, by simp, main, ?_⟩
  intro i j a b ha hb ra rb hij
  obtain ⟨a1, a2, a3⟩ := main i a ha
  obtain ⟨b1, b2, b3⟩ := main j b hb
  have hi := a1.mp ra
  have hj := b1.mp rb
  have hinj : ∀ x y, x < 256 ^ p.index_bytes → y < 256 ^ p.index_bytes → x ≠ y →
      Rfc.toByte x p.index_bytes ≠ Rfc.toByte y p.index_bytes := fun x y hx hy hne h => hne (toByte_inj hx hy h)
  by_cases ci : i = 2 ^ p.full_height - 1
  · rw [a3 ci, b2 (by omega), toByte_ff]; exact hinj _ _ (by omega) (by omega) (by omega)
  · rw [a2 (by omega)]
    by_cases cj : j = 2 ^ p.full_height - 1
    · rw [b3 cj, toByte_ff]; exact hinj _ _ (by omega) (by omega) (by omega)
    · rw [b2 (by omega)]; exact hinj _ _ (by omega) (by omega) hij

/-- **C19 (all sets except height 40).**  After `2^h` calls every further call returns -2, and the secret key contains
no key material: everything behind the index is zero. -/
theorem C19_exhausted_partial (hp : f.parse oid = some p) (hroom : p.full_height ≠ 40) (k : Key) (hk : k.Valid p)
    (cs : List Call) (hcs : Sized p cs) :
    ∃ outs, signAll P f (k.sk p oid 0) cs = some outs ∧ outs.length = cs.length ∧
      ∀ (j : Nat) (o : SignOut), outs[j]? = some o → 2 ^ p.full_height ≤ j → o.ret = -2 ∧
        o.sk.drop (4 + p.index_bytes) = List.replicate (4 * p.n) 0 := by
  obtain ⟨g, hskb, ho, H, hH⟩ := Family.facts (P := P) hp
  have hr : 2 ^ p.full_height < 256 ^ p.index_bytes := (indexFieldHasRoom_iff hp).mpr hroom
  have hpos : 0 < 2 ^ p.full_height := by positivity
  refine ⟨_, signAll_eq hp hH cs 0 k hk (by positivity) hcs, by simp, ?_⟩
  intro j o hj hge
  rw [List.getElem?_mapIdx] at hj
  obtain ⟨c, hc, rfl⟩ := Option.map_eq_some_iff.mp hj
  have h := stateAfter_after hr (k := k) (j - 2 ^ p.full_height)
  rw [Nat.add_sub_cancel' (by omega)] at h
  refine ⟨by simp only [outcome, if_neg (show ¬ (stateAfter p (0, k) j).1 < 2 ^ p.full_height by omega)], ?_⟩
  simp only [outcome, nextKey, if_neg (show ¬ (stateAfter p (0, k) j).1 < 2 ^ p.full_height - 1 by omega), Key.sk, Key.zero,
    ← List.drop_drop, List.append_assoc]
  rw [List.drop_left' (toByte_length _ _), List.drop_left' (toByte_length _ _), List.replicate_append_replicate,
    List.replicate_append_replicate, List.replicate_append_replicate]
  congr 1; omega

/-- After the last signature the key material is gone, for every parameter set (also height 40): every later state of
the secret key, after any number of calls, is zero behind the index. -/
theorem C19_material_deleted (hp : f.parse oid = some p) (k : Key) (hk : k.Valid p)
    (cs : List Call) (hcs : Sized p cs) :
    ∃ outs, signAll P f (k.sk p oid 0) cs = some outs ∧ outs.length = cs.length ∧
      ∀ (j : Nat) (o : SignOut), outs[j]? = some o → 2 ^ p.full_height - 1 ≤ j →
        o.sk.drop (4 + p.index_bytes) = List.replicate (4 * p.n) 0 := by
  obtain ⟨g, hskb, ho, H, hH⟩ := Family.facts (P := P) hp
  have hpos : 0 < 2 ^ p.full_height := by positivity
  refine ⟨_, signAll_eq hp hH cs 0 k hk (by positivity) hcs, by simp, ?_⟩
  intro j o hj hge
  rw [List.getElem?_mapIdx] at hj
  obtain ⟨c, hc, rfl⟩ := Option.map_eq_some_iff.mp hj
  have hz : ∀ n, (stateAfter p (0, k) (2 ^ p.full_height + n)).2 = Key.zero p := by
    intro n
    induction n with
    | zero => rw [Nat.add_zero, stateAfter_last]
    | succ n ih =>
      rw [← Nat.add_assoc, stateAfter]
      simp only [nextKey, ih, ite_self]
  have e : nextKey p (stateAfter p (0, k) j).1 (stateAfter p (0, k) j).2 = Key.zero p := by
    have h := hz (j + 1 - 2 ^ p.full_height)
    rw [Nat.add_sub_cancel' (by omega), stateAfter] at h
    exact h
  simp only [outcome, e, Key.sk, Key.zero, ← List.drop_drop, List.append_assoc]
  rw [List.drop_left' (toByte_length _ _), List.drop_left' (toByte_length _ _), List.replicate_append_replicate,
    List.replicate_append_replicate, List.replicate_append_replicate]
  congr 1; omega

/-- **C18, C19 (refuted for height 40).**  For the parameter sets of height 40 (index field of 5 bytes) call number
`2^40` is not refused: the stored index has wrapped around to 0, so the call returns 0 and carries the index 0 again
(now with the all-zero key), just like the very first signature. -/
theorem C19_fails_for_height_40 (hp : f.parse oid = some p) (h40 : p.full_height = 40) (k : Key) (hk : k.Valid p)
    (cs : List Call) (hcs : Sized p cs) :
    ∃ outs, signAll P f (k.sk p oid 0) cs = some outs ∧ outs.length = cs.length ∧
      ∀ (o : SignOut), outs[2 ^ 40]? = some o → o.ret = 0 ∧
        o.sm.take p.index_bytes = Rfc.toByte 0 p.index_bytes ∧
        o.sk.take (4 + p.index_bytes) = Rfc.toByte oid 4 ++ Rfc.toByte 1 p.index_bytes := by
  obtain ⟨g, hskb, ho, H, hH⟩ := Family.facts (P := P) hp
  have hfit := g.idx_fits
  have hr : ¬ 2 ^ p.full_height < 256 ^ p.index_bytes := fun h => (indexFieldHasRoom_iff hp).mp h h40
  refine ⟨_, signAll_eq hp hH cs 0 k hk (by positivity) hcs, by simp, ?_⟩
  intro o hj
  rw [List.getElem?_mapIdx] at hj
  obtain ⟨c, hc, rfl⟩ := Option.map_eq_some_iff.mp hj
  have hs : stateAfter p (0, k) (2 ^ 40) = (0, Key.zero p) := by
    have h := stateAfter_last (p := p) (k := k)
    rw [show 2 ^ p.full_height % 256 ^ p.index_bytes = 0 by
      rw [show 2 ^ p.full_height = 256 ^ p.index_bytes by omega]; exact Nat.mod_self _] at h
    rwa [h40] at h
  have hlt : 0 < 2 ^ p.full_height - 1 := by rw [h40]; omega
  rw [hs]
  refine ⟨by simp [outcome], ?_, ?_⟩
  · simp only [outcome, if_pos hlt, Rfc.Suite.sign, List.append_assoc]
    exact List.take_left' (toByte_length _ _)
  · simp only [outcome, nextIdx, if_pos hlt, Key.sk, List.append_assoc]
    rw [← List.append_assoc]
    exact List.take_left' (by simp [toByte_length])

-- Non-vacuity: XMSSMT-SHA2_40/4_256 has height 40, and XMSS-SHA2_10_256 does not.
example : ∃ p, Family.xmssmt.parse 4 = some p ∧ p.full_height = 40 := ⟨_, rfl, rfl⟩
example : ∃ p, Family.xmss.parse 1 = some p ∧ p.full_height ≠ 40 := ⟨_, rfl, by decide⟩

/-! ### C29 -/

/-- **C29 (refuted).**  There are public keys under which open accepts a signature
whose index is outside the tree: the range of the index is not checked.  Here: for all seeds and messages and every
out-of-range index that the index field can hold (none exists for the sets of height 40, see the example for others). -/
theorem C29_out_of_range_accepted (hp : f.parse oid = some p) (hH : coreHash P p.func p.n = some H)
    (skSeed skPrf pubSeed : Bytes) (hps : pubSeed.length = p.n) (idx : Nat)
    (_h1 : 2 ^ p.full_height ≤ idx) (h2 : idx < 256 ^ p.index_bytes) (msg m : Bytes) (l0 : Nat)
    (h64 : p.sig_bytes + msg.length < 2 ^ 64) (hm : p.sig_bytes + msg.length ≤ m.length) :
    ∃ (k : Key) (sig : Bytes) (r : OpenOut), k.pubSeed = pubSeed ∧ k.root.length = p.n ∧ sig.length = p.sig_bytes ∧
      Rfc.toNat (sig.take p.index_bytes) = idx ∧
      f.signOpen P m l0 (sig ++ msg) (p.sig_bytes + msg.length) (k.pk oid) = some r ∧ r.ret = 0 := by
  obtain ⟨g, hskb, ho, _⟩ := Family.facts (P := P) hp
  have hHl := Family.hash_length hp hH
  set S := suiteOf p H
  let root := S.treeRoot skSeed pubSeed (p.d - 1) (idx / 2 ^ p.full_height)
  have hrl : root.length = p.n := treeRoot_length g hHl _ _ _ _
  have hsl := sign_length g hHl skSeed skPrf root pubSeed idx msg
  obtain ⟨r, e1, e2, e3⟩ := C23_open_is_rfc hp hH ⟨skSeed, skPrf, root, pubSeed⟩ hrl hps _ msg m l0 hsl h64 hm
  refine ⟨⟨skSeed, skPrf, root, pubSeed⟩, _, r, rfl, hrl, hsl, ?_, e1, ?_⟩
  · simp only [Rfc.Suite.sign, List.append_assoc]
    show Rfc.toNat (List.take (suiteOf p H).idxLen _) = idx
    rw [List.take_left' (toByte_length _ _)]
    show Rfc.toNat (Rfc.toByte idx p.index_bytes) = idx
    rw [toNat_toByte, Nat.mod_eq_of_lt h2]
  · rw [e3, Rfc.Suite.verify, verifyRoot_sign g hHl _ _ _ _ _ _ h2]

-- Non-vacuity: XMSS-SHA2_10_256, index 1024.
example : ∃ p, Family.xmss.parse 1 = some p ∧ p.full_height ≠ 40 ∧ 2 ^ p.full_height ≤ 1024 ∧ 1024 < 256 ^ p.index_bytes :=
  ⟨_, rfl, by decide, by decide, by decide⟩

/-! ### C46 -/

/-- **C46.**  Take two successful signatures (any messages) under one key with indices in the same tree of layer `i`.
Then everything the signatures contain for the layers above `i` is the same: the WOTS signature on layer `i + 1` is
that of the root of the common tree. -/
theorem C46_common_certificates (hp : f.parse oid = some p) (hH : coreHash P p.func p.n = some H) (k : Key)
    (hk : k.Valid p) (idx idx' : Nat) (hidx : idx < 2 ^ p.full_height - 1) (hidx' : idx' < 2 ^ p.full_height - 1)
    (i : Nat) (hi : i + 1 < p.d)
    (hsame : idx / 2 ^ (p.tree_height * (i + 1)) = idx' / 2 ^ (p.tree_height * (i + 1)))
    (sm sm' m m' : Bytes) (l0 l0' : Nat)
    (hsm : sm.length = p.sig_bytes + m.length) (hsm' : sm'.length = p.sig_bytes + m'.length) :
    let S := suiteOf p H
    let tree := idx / 2 ^ (p.tree_height * (i + 1))
    let off := p.index_bytes + p.n + (i + 1) * (p.wots_sig_bytes + p.tree_height * p.n)
    ∃ o o', f.sign P (k.sk p oid idx) sm l0 m = some o ∧ f.sign P (k.sk p oid idx') sm' l0' m' = some o' ∧
      (o.sm.drop off).take (p.sig_bytes - off) = (o'.sm.drop off).take (p.sig_bytes - off) ∧
      (o.sm.drop off).take p.wots_sig_bytes =
        (S.wotsSig k.skSeed k.pubSeed (S.treeRoot k.skSeed k.pubSeed i tree) (i + 1) (tree / 2 ^ p.tree_height)
          (tree % 2 ^ p.tree_height)).flatten := by
  intro S tree off
  obtain ⟨g, hskb, ho, _⟩ := Family.facts (P := P) hp
  have hHl := Family.hash_length hp hH
  have hhp : S.hp = p.tree_height := g.hp_eq H
  have tail : ∀ (idx : Nat) (sm m : Bytes) (l0 : Nat), idx < 2 ^ p.full_height - 1 → 
      sm.length = p.sig_bytes + m.length → ∃ o, f.sign P (k.sk p oid idx) sm l0 m = some o ∧
        o.sm.drop off = S.signLayers k.skSeed k.pubSeed (p.d - (i + 1)) (i + 1) (idx / 2 ^ (p.tree_height * (i + 1)))
          (S.treeRoot k.skSeed k.pubSeed i (idx / 2 ^ (p.tree_height * (i + 1)))) ++ m := by
    intro idx sm m l0 hidx hsm
    obtain ⟨o, h1, _, _, h4, h5, h6⟩ := C22_signature_format (P := P) hp hH k hk idx hidx sm l0 m hsm
    refine ⟨o, h1, ?_⟩
    set R := (suiteOf p H).PRF k.skPrf (Rfc.toByte idx 32)
    set M := (suiteOf p H).digest R k.root idx m
    have hsplit : p.d = (i + 1) + (p.d - (i + 1)) := by omega
    have e1 : ((List.range p.d).map fun i => layerPart S k.skSeed k.pubSeed M idx i).flatten =
        ((List.range (i + 1)).map fun i => layerPart S k.skSeed k.pubSeed M idx i).flatten ++
        ((List.range (p.d - (i + 1))).map fun j => layerPart S k.skSeed k.pubSeed M idx (i + 1 + j)).flatten := by
      conv_lhs => rw [hsplit]
      rw [List.range_add, List.map_append, List.flatten_append, List.map_map]
      rfl
    have e2 := spec_signLayers_parts S k.skSeed k.pubSeed M idx (p.d - (i + 1)) (i + 1)
    rw [signedOnLayer, hhp] at e2
    have e3 : (((List.range (i + 1)).map fun i => layerPart S k.skSeed k.pubSeed M idx i).flatten).length =
        (i + 1) * (p.wots_sig_bytes + p.tree_height * p.n) := by
      rw [flatten_length_of (n := p.wots_sig_bytes + p.tree_height * p.n), List.length_map, List.length_range]
      intro x hx
      obtain ⟨j, hj, rfl⟩ := List.mem_map.mp hx
      exact h6 j (by have := List.mem_range.mp hj; omega)
    rw [h4, e1, e2]
    simp only [List.append_assoc]
    rw [← List.append_assoc, ← List.append_assoc]
    exact List.drop_left' (by rw [List.length_append, List.length_append, toByte_length, h5, e3])
  obtain ⟨o, h1, h2⟩ := tail idx sm m l0 hidx hsm
  obtain ⟨o', h1', h2'⟩ := tail idx' sm' m' l0' hidx' hsm'
  have hl : (S.signLayers k.skSeed k.pubSeed (p.d - (i + 1)) (i + 1) tree
      (S.treeRoot k.skSeed k.pubSeed i tree)).length = p.sig_bytes - off := by
    rw [signLayers_spec_length g hHl, g.sig_eq']
    have e : p.d = (i + 1) + (p.d - (i + 1)) := by omega
    show _ = _ - (p.index_bytes + p.n + (i + 1) * (p.wots_sig_bytes + p.tree_height * p.n))
    rw [g.sig_wots, ← Nat.add_mul]
    conv_rhs => rw [e, Nat.add_mul]
    omega
  refine ⟨o, o', h1, h1', ?_, ?_⟩
  · rw [h2, h2', ← hsame, List.take_left' hl, List.take_left' hl]
  · rw [h2, show p.d - (i + 1) = (p.d - (i + 1) - 1) + 1 by omega, Rfc.Suite.signLayers]
    simp only [List.append_assoc, hhp]
    exact List.take_left' (by rw [wotsSig_flat_length g hHl, g.sig_wots])

-- Non-vacuity: XMSSMT-SHA2_20/2_256, layer 0, indices 5 and 6 are in the same tree, 5 and 1029 are not.
example : ∃ p, Family.xmssmt.parse 1 = some p ∧ 0 + 1 < p.d ∧
    5 / 2 ^ (p.tree_height * (0 + 1)) = 6 / 2 ^ (p.tree_height * (0 + 1)) ∧
    5 / 2 ^ (p.tree_height * (0 + 1)) ≠ 1029 / 2 ^ (p.tree_height * (0 + 1)) := ⟨_, rfl, by decide, by decide, by decide⟩

/-! ### C47 -/

/-- **C47 (refuted).**  With `full_height = 64` every call of sign, at whatever index and with buffers of any size,
is undefined behaviour (`1ULL << 64`), so the promised special treatment of the last index is never reached; and no OID
has such parameters, so the API itself never gets there. -/
theorem C47_height_64_undefined (H : Bytes → Bytes) (p : Params) (h : p.full_height = 64) (sk sm m : Bytes) :
    coreSign H p sk sm m = none := by
  unfold coreSign
  cases wr sm p.sig_bytes m with
  | none => simp only [Option.bind_eq_bind, Option.bind_none]
  | some sm =>
  cases rd sk 0 p.index_bytes with
  | none => simp only [Option.bind_eq_bind, Option.bind_none, Option.bind_some]
  | some b =>
  simp only [Option.bind_eq_bind, Option.bind_some]
  cases bytesToUll b with
  | none => simp only [Option.bind_none]
  | some idx => simp only [Option.bind_some, if_pos (show 64 ≤ p.full_height by omega)]

theorem C47_unreachable_from_api (hp : f.parse oid = some p) : p.full_height < 64 := by
  cases f with
  | xmss => exact (xmss_parse_good hp).fh_lt
  | xmssmt => exact (xmssmt_parse_good hp).fh_lt

end Xmss
