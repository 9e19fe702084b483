import Verif.Props.FastMt
import Verif.Proof.OpenSame
/-
C49, C50: the API linked with the fast implementation, on its own: completeness, indices, exhaustion.
-/
namespace Xmss

variable {P : Prims} {f : Family} {oid : Nat} {p pf : Params} {H : Bytes → Bytes}

theorem Family.hashFast (hp : f.parseFast oid = some p) :
    ∃ H, coreHash P p.func p.n = some H ∧ ∀ x, (H x).length = p.n := by
  cases f with
  | xmss => exact C12_core_hash P _ oid p (Or.inl hp)
  | xmssmt => exact C12_core_hash P _ oid p (Or.inr hp)

/-- What call number `n` (from 0) of a history of the fast implementation does, for both families. -/
structure PostFast (p : Params) (H : Bytes → Bytes) (k : Key) (n : Nat) (c : Call) (o : FastOut) : Prop where
  ok : n + 1 < 2 ^ p.full_height → o.ret = 0 ∧ o.smlen = p.sig_bytes + c.msg.length ∧
    o.sm = (suiteOf p H).sign k.skSeed k.skPrf k.root k.pubSeed n c.msg ++ c.msg ++ c.sm.drop (p.sig_bytes + c.msg.length) ∧
    o.sk.take (p.index_bytes + 4 * p.n) =
      Rfc.toByte (n + 1) p.index_bytes ++ k.skSeed ++ k.skPrf ++ k.root ++ k.pubSeed
  last : n + 1 = 2 ^ p.full_height → o.ret = 0 ∧ o.smlen = p.sig_bytes + c.msg.length ∧
    o.sm = fastLastSig p H c.msg ++ c.msg ++ c.sm.drop (p.sig_bytes + c.msg.length) ∧
    o.sk.take (p.index_bytes + 4 * p.n) = Rfc.toByte (n + 1) p.index_bytes ++ List.replicate (4 * p.n) 0
  over : 2 ^ p.full_height ≤ n → o.ret = -2 ∧ o.sm = c.sm ∧ o.smlen = c.smlen0 ∧
    o.sk = List.replicate p.index_bytes 0xFF ++ List.replicate (p.sk_bytes - p.index_bytes) 0
  size : o.sk.length = p.sk_bytes

/-- The histories covered: all of the sets with `d ≤ h'/2 + 2` (every XMSS OID, XMSSMT 20/2, 20/4, 40/2, 40/4, 60/3, 60/6),
the first `2^20 - 1` calls of the others (40/8, 60/12); at height 40 at most `2^40` calls. -/
def FastCovered (p : Params) (cs : List Call) : Prop :=
  (p.full_height = 40 → cs.length ≤ 2 ^ 40) ∧
    (p.d ≤ p.tree_height / 2 + 2 ∨ cs.length < 2 ^ (p.tree_height * (p.tree_height / 2 + 2)))

/-- Everything about a key pair of the fast implementation and its histories, for both families. -/
theorem fast_history (hp : f.parseFast oid = some p) (hH : coreHash P p.func p.n = some H) (pk0 sk0 : Bytes)
    (hpk : pk0.length = 4 + p.pk_bytes) (hsk : sk0.length = 4 + p.sk_bytes) (seed : Nat → Bytes)
    (hs : (seed p.n).length = 3 * p.n) : ∃ k : Key, k.Valid p ∧ k.Honest (suiteOf p H) ∧
      seed p.n = k.skSeed ++ k.skPrf ++ k.pubSeed ∧
      ∃ sk, sk.length = p.sk_bytes ∧ f.keypairFast P pk0 sk0 oid seed = some (0, k.pk oid, Rfc.toByte oid 4 ++ sk) ∧
        ∀ cs : List Call, (∀ c ∈ cs, p.sig_bytes + c.msg.length ≤ c.sm.length) → FastCovered p cs →
          ∃ os : List FastOut, signAllFast P f (Rfc.toByte oid 4 ++ sk) cs = some (os.map fun o => { o with sk := Rfc.toByte oid 4 ++ o.sk }) ∧
            os.length = cs.length ∧ ∀ j c, cs[j]? = some c → ∃ o, os[j]? = some o ∧ PostFast p H k j c o := by
  cases f with
  | xmss =>
    obtain ⟨k, hv, hh, hsd, sk, e, hist⟩ := fast_xmss_history hp hH pk0 sk0 hpk hsk seed hs
    have hl : sk.length = p.sk_bytes := by
      obtain ⟨pk', sk', e', _, h, _⟩ := C34_fast_xmss_safe (P := P) hp pk0 sk0 hpk hsk seed hs
      rw [e] at e'
      simp only [Option.some.injEq, Prod.mk.injEq, true_and] at e'
      rw [← e'.2, List.length_append, toByte_length] at h
      omega
    refine ⟨k, hv, hh, hsd, sk, hl, e, ?_⟩
    intro cs hcs _
    obtain ⟨os, e1, hl, h⟩ := hist cs hcs
    refine ⟨os, e1, hl, fun j c hc => ?_⟩
    obtain ⟨o, ho, post⟩ := h j c hc
    exact ⟨o, ho, post.ok, post.last, post.over, post.size⟩
  | xmssmt =>
    obtain ⟨g, _, _, _, _, _⟩ := parseFast_good (f := .xmssmt) hp
    obtain ⟨k, hv, hh, hsd, sk, hl, e, hist⟩ := fast_xmssmt_history hp hH pk0 sk0 hpk hsk seed hs
    refine ⟨k, hv, hh, hsd, sk, hl, e, ?_⟩
    intro cs hcs hcov
    obtain ⟨os, e1, hl, h⟩ := hist cs (fastLimit g hcov.2) (fastFit hp hcov.1) hcs
    refine ⟨os, e1, hl, fun j c hc => ?_⟩
    obtain ⟨o, ho, post⟩ := h j c hc
    exact ⟨o, ho, post.ok, post.last, post.over, post.size⟩

/-! ### C49 -/

/-- Verification is the same function in both builds, for all inputs whatsoever. -/
theorem C49_open_is_the_same (m : Bytes) (mlen0 : Nat) (sm : Bytes) (smlen : Nat) (pk : Bytes) :
    f.signOpenFast P m mlen0 sm smlen pk = f.signOpen P m mlen0 sm smlen pk := by
  have e : f.signOpen P m mlen0 sm smlen pk = apiOpen P f.parse m mlen0 sm smlen pk := by cases f <;> rfl
  rw [e, Family.signOpenFast, apiOpen, apiOpen]
  cases readOid pk with
  | none => rfl
  | some oid =>
    simp only [Option.bind_eq_bind, Option.bind_some]
    cases hp : f.parse oid with
    | some p =>
      obtain ⟨pf, hpf, rfl⟩ := parse_both hp
      simp only [hpf, coreSignOpen_skb]
    | none =>
      cases hpf : f.parseFast oid with
      | none => rfl
      | some pf =>
        exfalso
        cases f with
        | xmss =>
          have h1 : (xmssParseOid slowSkBytes oid).isSome := by
            rw [C02_xmss_oids slowSkBytes oid, ← C02_xmss_oids fastSkBytes oid]
            rw [show xmssParseOid fastSkBytes oid = some pf from hpf]; rfl
          rw [show xmssParseOid slowSkBytes oid = none from hp] at h1
          cases h1
        | xmssmt =>
          have h1 : (xmssmtParseOid slowSkBytes oid).isSome := by
            rw [C02_xmssmt_oids slowSkBytes oid, ← C02_xmssmt_oids fastSkBytes oid]
            rw [show xmssmtParseOid fastSkBytes oid = some pf from hpf]; rfl
          rw [show xmssmtParseOid slowSkBytes oid = none from hp] at h1
          cases h1

/-- **C49.**  With the fast implementation, after key generation from any seeds and whatever the buffers contained, in any
history of at most `2^h - 1` sign calls on any messages, every call returns 0, and opening its output with the public key, in
either build and into any buffer, returns 0, the message and its length.  (For 40/8 and 60/12: histories of fewer than
`2^20` calls; beyond, C33_fails.) -/
theorem C49_fast_completeness (hp : f.parse oid = some p) (hpf : f.parseFast oid = some pf)
    (pk0 sk0 : Bytes) (hpk : pk0.length = 4 + pf.pk_bytes) (hsk : sk0.length = 4 + pf.sk_bytes) (seed : Nat → Bytes)
    (hs : (seed p.n).length = 3 * p.n) :
    ∃ pk sk, f.keypairFast P pk0 sk0 oid seed = some (0, pk, sk) ∧
      ∀ cs : List Call, (∀ c ∈ cs, p.sig_bytes + c.msg.length ≤ c.sm.length) → cs.length ≤ 2 ^ p.full_height - 1 →
        (p.d ≤ p.tree_height / 2 + 2 ∨ cs.length < 2 ^ (p.tree_height * (p.tree_height / 2 + 2))) →
        (∀ c ∈ cs, p.sig_bytes + c.msg.length < 2 ^ 64) →
        ∃ outs : List FastOut, signAllFast P f sk cs = some outs ∧ outs.length = cs.length ∧
          ∀ (j : Nat) (o : FastOut) (c : Call), outs[j]? = some o → cs[j]? = some c → o.ret = 0 ∧
            o.smlen = p.sig_bytes + c.msg.length ∧
            ∀ (m : Bytes) (l0 : Nat), p.sig_bytes + c.msg.length ≤ m.length →
              ∃ r, f.signOpenFast P m l0 (o.sm.take o.smlen) o.smlen pk = some r ∧
                f.signOpen P m l0 (o.sm.take o.smlen) o.smlen pk = some r ∧
                r.ret = 0 ∧ r.mlen = c.msg.length ∧ r.m.take r.mlen = c.msg := by
  obtain ⟨pf', hpf', e⟩ := parse_both hp
  rw [hpf] at hpf'
  cases hpf'
  obtain ⟨g, hskb, ho, H, hH⟩ := Family.facts (P := P) hp
  have hHl := Family.hash_length hp hH
  have hHf : coreHash P pf.func pf.n = some H := by rw [e]; exact hH
  have hS : suiteOf pf H = suiteOf p H := by rw [e]; rfl
  have en : pf.n = p.n := by rw [e]
  have esig : pf.sig_bytes = p.sig_bytes := by rw [e]
  have efh : pf.full_height = p.full_height := by rw [e]
  have eth : pf.tree_height = p.tree_height := by rw [e]
  have ed : pf.d = p.d := by rw [e]
  obtain ⟨k, hv, hh, _, sk, _, ek, hist⟩ := fast_history hpf hHf pk0 sk0 hpk hsk seed (by rw [en]; exact hs)
  have hr : k.root.length = p.n := by rw [← en]; exact hv.root
  have hps : k.pubSeed.length = p.n := by rw [← en]; exact hv.pubSeed
  refine ⟨_, _, ek, ?_⟩
  intro cs hcs hlen hlim h64
  have hpos : 0 < 2 ^ p.full_height := Nat.two_pow_pos _
  obtain ⟨os, e1, l1, h1⟩ := hist cs (by rw [esig]; exact hcs)
    ⟨fun h => by rw [efh] at h; rw [h] at hlen; omega, by rw [ed, eth]; exact hlim⟩
  refine ⟨_, e1, by simp [l1], ?_⟩
  intro j o c hj hc
  have hjl : j < cs.length := (List.getElem?_eq_some_iff.mp hc).1
  have hcmem : c ∈ cs := List.mem_of_getElem? hc
  obtain ⟨o', ho', post⟩ := h1 j c hc
  rw [List.getElem?_map, ho'] at hj
  simp only [Option.map_some, Option.some.injEq] at hj
  subst hj
  obtain ⟨c1, c2, c3, _⟩ := post.ok (by rw [efh]; omega)
  rw [esig] at c2 c3
  rw [hS] at c3
  refine ⟨c1, c2, ?_⟩
  intro m l0 hm
  have hsl := sign_length g hHl k.skSeed k.skPrf k.root k.pubSeed j c.msg
  have et : o'.sm.take o'.smlen = (suiteOf p H).sign k.skSeed k.skPrf k.root k.pubSeed j c.msg ++ c.msg := by
    rw [c3, c2]
    exact List.take_left' (by simp [hsl])
  obtain ⟨r, h1, h2, h3⟩ := C23_open_is_rfc hp hH k hr hps _ c.msg m l0 hsl (h64 c hcmem) hm
  obtain ⟨r', h1', h4⟩ := C24_open_output (P := P) hp k hr hps _ c.msg m l0 hsl (h64 c hcmem) hm
  rw [h1] at h1'
  cases h1'
  have hver : r.ret = 0 := by
    rw [h3, Rfc.Suite.verify, verifyRoot_sign g hHl _ _ _ _ _ _ (by have := g.idx_fits; omega),
      Nat.div_eq_of_lt (by omega)]
    rw [Key.Honest, hS] at hh
    rw [hh]
    rfl
  have e3 : f.signOpen P m l0 (o'.sm.take o'.smlen) o'.smlen (k.pk oid) = some r := by rw [et, c2]; exact h1
  refine ⟨r, by rw [C49_open_is_the_same]; exact e3, e3, hver, ?_⟩
  rcases h4 with ⟨_, h5, h6⟩ | ⟨h5, _⟩
  · exact ⟨h5, by rw [h5]; exact h6⟩
  · rw [hver] at h5; cases h5

/-! ### C50 -/

theorem toByte_ne {n i j : Nat} (hi : i < 256 ^ n) (hj : j < 256 ^ n) (h : i ≠ j) : Rfc.toByte i n ≠ Rfc.toByte j n := by
  intro e
  have := congrArg Rfc.toNat e
  rw [toNat_toByte, toNat_toByte, Nat.mod_eq_of_lt hi, Nat.mod_eq_of_lt hj] at this
  exact h this

/-- **C50.**  In every (covered) history of the fast implementation, of any length: the successful calls are exactly the
first `2^h`; call number `j < 2^h` carries exactly the index `j` (the last one too), so no two carry the same index, and the
secret key then holds `j + 1`; every later call returns -2, leaves the output buffer and `*smlen` untouched, and leaves a
secret key whose index bytes are 0xFF and in which every byte behind the index (seeds, root and the whole BDS state) is 0. -/
theorem C50_fast_indices (hp : f.parseFast oid = some p) (pk0 sk0 : Bytes)
    (hpk : pk0.length = 4 + p.pk_bytes) (hsk : sk0.length = 4 + p.sk_bytes) (seed : Nat → Bytes)
    (hs : (seed p.n).length = 3 * p.n) :
    ∃ pk sk, f.keypairFast P pk0 sk0 oid seed = some (0, pk, sk) ∧
      ∀ cs : List Call, (∀ c ∈ cs, p.sig_bytes + c.msg.length ≤ c.sm.length) → FastCovered p cs →
        ∃ outs : List FastOut, signAllFast P f sk cs = some outs ∧ outs.length = cs.length ∧
          (∀ (j : Nat) (o : FastOut) (c : Call), outs[j]? = some o → cs[j]? = some c →
            (j < 2 ^ p.full_height → o.ret = 0 ∧ o.smlen = p.sig_bytes + c.msg.length ∧
              o.sm.take p.index_bytes = Rfc.toByte j p.index_bytes ∧ (o.sm.drop p.sig_bytes).take c.msg.length = c.msg ∧
              (o.sk.drop 4).take p.index_bytes = Rfc.toByte (j + 1) p.index_bytes) ∧
            (2 ^ p.full_height ≤ j → o.ret = -2 ∧ o.sm = c.sm ∧ o.smlen = c.smlen0 ∧
              o.sk = Rfc.toByte oid 4 ++ List.replicate p.index_bytes 0xFF ++
                List.replicate (p.sk_bytes - p.index_bytes) 0)) ∧
          ∀ (i j : Nat) (a b : FastOut), outs[i]? = some a → outs[j]? = some b → a.ret = 0 → b.ret = 0 → i ≠ j →
            a.sm.take p.index_bytes ≠ b.sm.take p.index_bytes := by
  obtain ⟨H, hH, hHl⟩ := Family.hashFast (P := P) hp
  obtain ⟨g, _, _, _, _, _⟩ := parseFast_good hp
  obtain ⟨k, hv, _, _, sk, _, e, hist⟩ := fast_history hp hH pk0 sk0 hpk hsk seed hs
  have hfit := g.idx_fits
  refine ⟨_, _, e, ?_⟩
  intro cs hcs hcov
  obtain ⟨os, e1, l1, h1⟩ := hist cs hcs hcov
  have hsl := fun j m => sign_length g hHl k.skSeed k.skPrf k.root k.pubSeed j m
  have main : ∀ (j : Nat) (o : FastOut) (c : Call),
      (os.map fun o => { o with sk := Rfc.toByte oid 4 ++ o.sk })[j]? = some o → cs[j]? = some c →
      (j < 2 ^ p.full_height → o.ret = 0 ∧ o.smlen = p.sig_bytes + c.msg.length ∧
        o.sm.take p.index_bytes = Rfc.toByte j p.index_bytes ∧ (o.sm.drop p.sig_bytes).take c.msg.length = c.msg ∧
        (o.sk.drop 4).take p.index_bytes = Rfc.toByte (j + 1) p.index_bytes) ∧
      (2 ^ p.full_height ≤ j → o.ret = -2 ∧ o.sm = c.sm ∧ o.smlen = c.smlen0 ∧
        o.sk = Rfc.toByte oid 4 ++ List.replicate p.index_bytes 0xFF ++
          List.replicate (p.sk_bytes - p.index_bytes) 0) := by
    intro j o c hj hc
    obtain ⟨o', ho', post⟩ := h1 j c hc
    rw [List.getElem?_map, ho'] at hj
    simp only [Option.map_some, Option.some.injEq] at hj
    subst hj
    have tk : ∀ x y : Bytes, x.length = p.index_bytes → o'.sk.take (p.index_bytes + 4 * p.n) = x ++ y →
        ((Rfc.toByte oid 4 ++ o'.sk).drop 4).take p.index_bytes = x := by
      intro x y hx hxy
      rw [List.drop_left' (toByte_length _ _)]
      have := congrArg (List.take p.index_bytes) hxy
      rw [List.take_take, Nat.min_eq_left (by omega), List.take_left' hx] at this
      exact this
    constructor
    · intro hlt
      by_cases hl : j + 1 < 2 ^ p.full_height
      · obtain ⟨c1, c2, c3, c4⟩ := post.ok hl
        refine ⟨c1, c2, ?_, ?_, ?_⟩
        · simp only [c3, Rfc.Suite.sign, List.append_assoc]
          exact List.take_left' (toByte_length _ _)
        · simp only [c3, List.append_assoc]
          rw [List.drop_left' (hsl _ _), List.take_left]
        · refine tk _ (k.skSeed ++ k.skPrf ++ k.root ++ k.pubSeed) (toByte_length _ _) ?_
          rw [c4]; simp only [List.append_assoc]
      · obtain ⟨c1, c2, c3, c4⟩ := post.last (by omega)
        refine ⟨c1, c2, ?_, ?_, ?_⟩
        · have : j = 2 ^ p.full_height - 1 := by omega
          subst this
          simp only [c3, fastLastSig, List.append_assoc]
          exact List.take_left' (toByte_length _ _)
        · simp only [c3, List.append_assoc]
          rw [List.drop_left' (fastLastSig_length g hHl _), List.take_left]
        · exact tk _ _ (toByte_length _ _) c4
    · intro hge
      obtain ⟨c1, c2, c3, c4⟩ := post.over hge
      refine ⟨c1, c2, c3, ?_⟩
      simp only [c4, List.append_assoc]
  refine ⟨_, e1, by simp [l1], main, ?_⟩
  intro i j a b ha hb ra rb hij
  have hin : ∀ (i : Nat) (a : FastOut), (os.map fun o => { o with sk := Rfc.toByte oid 4 ++ o.sk })[i]? = some a → a.ret = 0 →
      i < 2 ^ p.full_height ∧ a.sm.take p.index_bytes = Rfc.toByte i p.index_bytes := by
    intro i a ha ra
    have hi : i < cs.length := by
      by_contra hn
      rw [List.getElem?_eq_none (by simp; omega)] at ha
      cases ha
    have m := main i a cs[i] ha (List.getElem?_eq_getElem hi)
    by_cases hlt : i < 2 ^ p.full_height
    · exact ⟨hlt, (m.1 hlt).2.2.1⟩
    · have := (m.2 (by omega)).1
      rw [ra] at this
      cases this
  obtain ⟨i1, i2⟩ := hin i a ha ra
  obtain ⟨j1, j2⟩ := hin j b hb rb
  rw [i2, j2]
  exact toByte_ne (by omega) (by omega) hij

/-- As in the simple implementation (C17), the signature number `2^h` is worthless: whatever the two keys and the
histories before, the same last message gives the same bytes (into equal buffers), because the key is deleted first. -/
theorem C50_last_signature_ignores_key (hp : f.parseFast oid = some p) (pk0 sk0 pk0' sk0' : Bytes)
    (hpk : pk0.length = 4 + p.pk_bytes) (hsk : sk0.length = 4 + p.sk_bytes)
    (hpk' : pk0'.length = 4 + p.pk_bytes) (hsk' : sk0'.length = 4 + p.sk_bytes) (seed seed' : Nat → Bytes)
    (hs : (seed p.n).length = 3 * p.n) (hs' : (seed' p.n).length = 3 * p.n) (hd : p.d ≤ p.tree_height / 2 + 2) :
    ∃ pk sk pk' sk', f.keypairFast P pk0 sk0 oid seed = some (0, pk, sk) ∧
      f.keypairFast P pk0' sk0' oid seed' = some (0, pk', sk') ∧
      ∀ cs cs' : List Call, (∀ c ∈ cs, p.sig_bytes + c.msg.length ≤ c.sm.length) →
        (∀ c ∈ cs', p.sig_bytes + c.msg.length ≤ c.sm.length) → cs.length = 2 ^ p.full_height →
        cs'.length = 2 ^ p.full_height → cs[2 ^ p.full_height - 1]? = cs'[2 ^ p.full_height - 1]? →
        ∃ outs outs' : List FastOut, signAllFast P f sk cs = some outs ∧ signAllFast P f sk' cs' = some outs' ∧
          ∃ o o' : FastOut, outs[2 ^ p.full_height - 1]? = some o ∧ outs'[2 ^ p.full_height - 1]? = some o' ∧
            o.ret = 0 ∧ o'.ret = 0 ∧ o.sm = o'.sm := by
  obtain ⟨H, hH, hHl⟩ := Family.hashFast (P := P) hp
  obtain ⟨k, _, _, _, sk, _, e, hist⟩ := fast_history hp hH pk0 sk0 hpk hsk seed hs
  obtain ⟨k', _, _, _, sk', _, e', hist'⟩ := fast_history hp hH pk0' sk0' hpk' hsk' seed' hs'
  refine ⟨_, _, _, _, e, e', ?_⟩
  intro cs cs' hcs hcs' hl hl' heq
  have hpos : 0 < 2 ^ p.full_height := Nat.two_pow_pos _
  obtain ⟨os, e1, _, h1⟩ := hist cs hcs ⟨fun h => by rw [hl, h], Or.inl hd⟩
  obtain ⟨os', e1', _, h1'⟩ := hist' cs' hcs' ⟨fun h => by rw [hl', h], Or.inl hd⟩
  have hc := List.getElem?_eq_getElem (l := cs) (i := 2 ^ p.full_height - 1) (by omega)
  obtain ⟨o, ho, post⟩ := h1 _ _ hc
  obtain ⟨o', ho', post'⟩ := h1' _ _ (by rw [← heq]; exact hc)
  obtain ⟨c1, _, c3, _⟩ := post.last (by omega)
  obtain ⟨d1, _, d3, _⟩ := post'.last (by omega)
  exact ⟨_, _, e1, e1', { o with sk := Rfc.toByte oid 4 ++ o.sk }, { o' with sk := Rfc.toByte oid 4 ++ o'.sk },
    by rw [List.getElem?_map, ho]; rfl, by rw [List.getElem?_map, ho']; rfl, c1, d1, by rw [c3, d3]⟩

theorem fastXmssmtSignBody_ret {sk sm m : Bytes} {states : List BdsState} {sigs : List Bytes} {idx : Nat} {o : FastOut}
    (h : fastXmssmtSignBody H p sk sm m states sigs idx = some o) : o.ret = 0 := by
  unfold fastXmssmtSignBody at h
  obtain ⟨_, _, h⟩ := Option.bind_eq_some_iff.mp h
  obtain ⟨_, _, h⟩ := Option.bind_eq_some_iff.mp h
  obtain ⟨_, _, h⟩ := Option.bind_eq_some_iff.mp h
  obtain ⟨_, _, h⟩ := Option.bind_eq_some_iff.mp h
  obtain ⟨_, _, h⟩ := Option.bind_eq_some_iff.mp h
  obtain ⟨_, _, h⟩ := Option.bind_eq_some_iff.mp h
  split at h
  · cases h
  · obtain ⟨_, _, h⟩ := Option.bind_eq_some_iff.mp h
    obtain ⟨_, _, h⟩ := Option.bind_eq_some_iff.mp h
    obtain ⟨_, _, h⟩ := Option.bind_eq_some_iff.mp h
    obtain ⟨_, _, h⟩ := Option.bind_eq_some_iff.mp h
    obtain ⟨_, _, h⟩ := Option.bind_eq_some_iff.mp h
    obtain ⟨_, _, h⟩ := Option.bind_eq_some_iff.mp h
    obtain ⟨_, _, h⟩ := Option.bind_eq_some_iff.mp h
    obtain ⟨_, _, h⟩ := Option.bind_eq_some_iff.mp h
    obtain ⟨_, _, h⟩ := Option.bind_eq_some_iff.mp h
    obtain ⟨_, _, h⟩ := Option.bind_eq_some_iff.mp h
    obtain ⟨_, _, h⟩ := Option.bind_eq_some_iff.mp h
    cases h
    rfl

/-- **C50 fails for height 40**, as C19 does: after `2^40` calls the five index bytes have wrapped around to 0, and call
number `2^40` is not refused (in the model it either returns 0 or is undefined). -/
theorem C50_fails_for_height_40 (hp : parseXmssmtFast oid = some p) (h40 : p.full_height = 40)
    (hd : p.d ≤ p.tree_height / 2 + 2) (pk0 sk0 : Bytes)
    (hpk : pk0.length = 4 + p.pk_bytes) (hsk : sk0.length = 4 + p.sk_bytes) (seed : Nat → Bytes)
    (hs : (seed p.n).length = 3 * p.n) :
    ∃ pk sk, xmssmtKeypairFast P pk0 sk0 oid seed = some (0, pk, sk) ∧
      ∀ cs : List Call, (∀ c ∈ cs, p.sig_bytes + c.msg.length ≤ c.sm.length) → cs.length = 2 ^ 40 →
        ∃ outs : List FastOut, signAllFast P .xmssmt sk cs = some outs ∧
          ∃ o : FastOut, outs[2 ^ 40 - 1]? = some o ∧ o.ret = 0 ∧
            (o.sk.drop 4).take (p.index_bytes + 4 * p.n) = List.replicate (p.index_bytes + 4 * p.n) 0 ∧
            ∀ (sm : Bytes) (l0 : Nat) (m : Bytes) (o' : FastOut), xmssmtSignFast P o.sk sm l0 m = some o' → o'.ret = 0 := by
  obtain ⟨H, hH, hHl⟩ := C12_core_hash P _ oid p (Or.inr hp)
  obtain ⟨g, hskb, ho8, _, _, _⟩ := parseFast_good (f := .xmssmt) hp
  obtain ⟨k, hv, _, _, sk, _, e, hist⟩ := fast_history (f := .xmssmt) hp hH pk0 sk0 hpk hsk seed hs
  have hib : p.index_bytes = 5 := by
    obtain ⟨e, he, _, rfl⟩ := xmssmt_parse_entry hp
    have : ∀ e ∈ Registry.xmssmt, e.h = 40 → (params16 fastSkBytes (funcOf e.family) e.n e.pad e.h e.d 0).index_bytes = 5 := by
      decide +kernel
    exact this e he h40
  refine ⟨_, _, e, ?_⟩
  intro cs hcs hl
  obtain ⟨os, e1, _, h1⟩ := hist cs hcs ⟨fun _ => hl.le, Or.inl hd⟩
  obtain ⟨o, ho, post⟩ := h1 (2 ^ 40 - 1) _ (List.getElem?_eq_getElem (by omega))
  obtain ⟨c1, _, _, c4⟩ := post.last (by rw [h40]; omega)
  have hz : o.sk.take (p.index_bytes + 4 * p.n) = List.replicate (p.index_bytes + 4 * p.n) 0 := by
    rw [c4, hib, show Rfc.toByte (2 ^ 40 - 1 + 1) 5 = List.replicate 5 0 by decide, List.replicate_append_replicate]
  refine ⟨_, e1, { o with sk := Rfc.toByte oid 4 ++ o.sk }, by rw [List.getElem?_map, ho]; rfl, c1, ?_, ?_⟩
  · rw [List.drop_left' (toByte_length _ _)]; exact hz
  · intro sm l0 m o' h
    simp only [xmssmtSignFast, apiSignFast] at h
    rw [readOid_toByte (by omega)] at h
    simp only [Option.bind_eq_bind, Option.bind_some, hp, hH] at h
    rw [Option.bind_eq_some_iff] at h
    obtain ⟨r, h, hr⟩ := h
    cases hr
    have t1 : (Rfc.toByte oid 4 ++ o.sk).drop oidLen = o.sk := List.drop_left' (toByte_length _ _)
    rw [t1, fastXmssmtSign] at h
    split at h
    · cases h
    · simp only [Option.bind_eq_bind, Option.bind_eq_some_iff] at h
      obtain ⟨ds, _, b, hb, idx, hidx, h⟩ := h
      have hb' : b = List.replicate 5 0 := by
        have h2 : rd o.sk 0 p.index_bytes = some (List.replicate 5 0) := by
          rw [hib]
          have hlen := post.size
          have : 5 ≤ o.sk.length := by
            have := congrArg List.length hz
            simp only [List.length_take, List.length_replicate, hib] at this
            omega
          rw [rd, if_pos (by omega)]
          have := congrArg (List.take 5) hz
          rw [List.take_take, hib, Nat.min_eq_left (by omega), List.take_replicate, Nat.min_eq_left (by omega)] at this
          simpa using this
        rw [hb] at h2
        exact Option.some.inj h2
      rw [hb', show bytesToUll (List.replicate 5 0) = some 0 by decide] at hidx
      cases hidx
      split at h
      · cases h
      · rw [if_neg (by have : 2 ≤ 2 ^ p.full_height := (by rw [h40]; decide); omega)] at h
        show r.ret = 0
        exact fastXmssmtSignBody_ret h

-- Covered histories: XMSS-SHA2_10_256 of any length; XMSSMT-SHA2_20/2_256 also; XMSSMT-SHA2_40/8_256 up to 2^20 - 1 calls.
example : ∃ p, Family.xmss.parseFast 1 = some p ∧ ∀ cs, FastCovered p cs :=
  ⟨_, rfl, fun _ => ⟨fun h => absurd h (by decide), Or.inl (by decide)⟩⟩
example : ∃ p, Family.xmssmt.parseFast 1 = some p ∧ ∀ cs, FastCovered p cs :=
  ⟨_, rfl, fun _ => ⟨fun h => absurd h (by decide), Or.inl (by decide)⟩⟩
example : ∃ p, Family.xmssmt.parseFast 5 = some p ∧ ∀ cs : List Call, cs.length < 2 ^ 20 → FastCovered p cs := by
  refine ⟨_, rfl, fun cs h => ⟨fun _ => ?_, Or.inr h⟩⟩
  have : (2 : Nat) ^ 20 ≤ 2 ^ 40 := by decide
  omega
example : ∃ p, parseXmssmtFast 3 = some p ∧ p.full_height = 40 ∧ p.d ≤ p.tree_height / 2 + 2 := ⟨_, rfl, by decide, by decide⟩

end Xmss
