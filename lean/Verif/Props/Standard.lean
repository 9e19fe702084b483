import Verif.Spec.Standard
import Verif.Props.Keccak
import Verif.Props.FastHistory
/-
C53: from the name of a parameter set to bytes, in terms of the standards only.
-/
namespace Xmss

variable {P : Prims} {f : Family}

/-- The registered sets of a family. -/
def Family.registry : Family → List Registry.Entry | .xmss => Registry.xmss | .xmssmt => Registry.xmssmt
/-- `xmss_str_to_oid` or `xmssmt_str_to_oid` -/
def Family.lookup : Family → String → Option Nat | .xmss => xmssStrToOid | .xmssmt => xmssmtStrToOid

theorem registry_parse {e : Registry.Entry} (he : e ∈ f.registry) :
    f.parse e.oid = some (params16 slowSkBytes (funcOf e.family) e.n e.pad e.h e.d 0) ∧
      f.parseFast e.oid = some (params16 fastSkBytes (funcOf e.family) e.n e.pad e.h e.d 0) := by
  cases f with
  | xmss =>
    have h1 : ∀ e ∈ Registry.xmss, 1 ≤ e.oid ∧ e.oid ≤ 0x15 := by decide +kernel
    have main : ∀ skb, xmssParseOid skb e.oid = some (params16 skb (funcOf e.family) e.n e.pad e.h e.d 0) := by
      intro skb
      obtain ⟨p, hp⟩ := Option.isSome_iff_exists.mp ((C02_xmss_oids skb e.oid).mpr (h1 e he))
      obtain ⟨e', he', ho, rfl⟩ := xmss_parse_entry hp
      rw [hp, List.inj_on_of_nodup_map xmss_oid_nodup he' he ho]
    exact ⟨main _, main _⟩
  | xmssmt =>
    have h1 : ∀ e ∈ Registry.xmssmt, 1 ≤ e.oid ∧ e.oid ≤ 0x38 := by decide +kernel
    have main : ∀ skb, xmssmtParseOid skb e.oid = some (params16 skb (funcOf e.family) e.n e.pad e.h e.d 0) := by
      intro skb
      obtain ⟨p, hp⟩ := Option.isSome_iff_exists.mp ((C02_xmssmt_oids skb e.oid).mpr (h1 e he))
      obtain ⟨e', he', ho, rfl⟩ := xmssmt_parse_entry hp
      rw [hp, List.inj_on_of_nodup_map xmssmt_oid_nodup he' he ho]
    exact ⟨main _, main _⟩

theorem registry_hash {e : Registry.Entry} (he : e ∈ f.registry) :
    (e.family = .sha2 ∧ (e.n = 24 ∨ e.n = 32 ∨ e.n = 64)) ∨ (e.family = .shake128 ∧ e.n = 32) ∨
      (e.family = .shake256 ∧ (e.n = 24 ∨ e.n = 32 ∨ e.n = 64)) := by
  have h1 : ∀ e ∈ Registry.xmss ++ Registry.xmssmt, (e.family = .sha2 ∧ (e.n = 24 ∨ e.n = 32 ∨ e.n = 64)) ∨
      (e.family = .shake128 ∧ e.n = 32) ∨ (e.family = .shake256 ∧ (e.n = 24 ∨ e.n = 32 ∨ e.n = 64)) := by decide +kernel
  cases f with
  | xmss => exact h1 e (List.mem_append_left _ he)
  | xmssmt => exact h1 e (List.mem_append_right _ he)

/-- `core_hash` computes exactly the hash function that the standards assign to the set. -/
theorem C53_hash_function {e : Registry.Entry} (he : e ∈ f.registry) :
    ∃ H, coreHash P (funcOf e.family) e.n = some H ∧ e.IsHash P.sha256 P.sha512 H ∧
      ∀ H', e.IsHash P.sha256 P.sha512 H' → H' = H := by
  have sh : ∀ (a b : Bytes → Bytes), (∀ x, Fips202.bits (a x) = Fips202.bits (b x)) → a = b :=
    fun a b h => funext fun x => C38_bits_determine_bytes (h x)
  rcases registry_hash he with ⟨hf, hn | hn | hn⟩ | ⟨hf, hn⟩ | ⟨hf, hn | hn | hn⟩ <;>
    simp only [Registry.Entry.IsHash, hf, hn, funcOf, coreHash]
  · refine ⟨_, rfl, Or.inl ⟨trivial, fun _ => rfl⟩, ?_⟩
    rintro H' (⟨_, h⟩ | ⟨h, _⟩ | ⟨h, _⟩)
    · exact funext h
    · cases h
    · cases h
  · refine ⟨_, rfl, Or.inr (Or.inl ⟨trivial, fun _ => rfl⟩), ?_⟩
    rintro H' (⟨h, _⟩ | ⟨_, h⟩ | ⟨h, _⟩)
    · cases h
    · exact funext h
    · cases h
  · refine ⟨_, rfl, Or.inr (Or.inr ⟨trivial, fun _ => rfl⟩), ?_⟩
    rintro H' (⟨h, _⟩ | ⟨h, _⟩ | ⟨_, h⟩)
    · cases h
    · cases h
    · exact funext h
  · exact ⟨_, rfl, fun x => (C38_shake128 32 x).2, fun H' h => sh _ _ fun x => by rw [h x, (C38_shake128 32 x).2]⟩
  · exact ⟨_, rfl, fun x => (C38_shake256 24 x).2, fun H' h => sh _ _ fun x => by rw [h x, (C38_shake256 24 x).2]⟩
  · exact ⟨_, rfl, fun x => (C38_shake256 32 x).2, fun H' h => sh _ _ fun x => by rw [h x, (C38_shake256 32 x).2]⟩
  · exact ⟨_, rfl, fun x => (C38_shake256 64 x).2, fun H' h => sh _ _ fun x => by rw [h x, (C38_shake256 64 x).2]⟩

theorem registry_shape {e : Registry.Entry} (he : e ∈ f.registry) : 0 < e.d ∧ e.h % e.d = 0 ∧ e.n % 8 = 0 := by
  have h1 : ∀ e ∈ Registry.xmss ++ Registry.xmssmt, 0 < e.d ∧ e.h % e.d = 0 ∧ e.n % 8 = 0 := by decide +kernel
  cases f with
  | xmss => exact h1 e (List.mem_append_left _ he)
  | xmssmt => exact h1 e (List.mem_append_right _ he)

theorem sigLen_eq {e : Registry.Entry} (he : e ∈ f.registry) (skb : Params → Nat) :
    (params16 skb (funcOf e.family) e.n e.pad e.h e.d 0).sig_bytes = e.sigLen := by
  obtain ⟨h1, h2, h3⟩ := registry_shape he
  have hh : e.d * (e.h / e.d) = e.h := Nat.mul_div_cancel' (Nat.dvd_of_mod_eq_zero h2)
  have hn : 8 * e.n / 4 = 2 * e.n := by omega
  simp only [params16, Registry.Entry.sigLen, Registry.Entry.idxLen, hn]
  rw [Nat.mul_add, ← Nat.mul_assoc e.d (e.h / e.d), hh]
  omega

/-- **C53.**  For every registered set, the API called with that set's name computes the algorithms of RFC 8391 with the
parameters and the hash function that the standards assign to it: the name is known; key generation turns the three seeds
into the root of the hypertree; signing with index `idx < 2^h - 1` produces the RFC signature and increments the index;
verification accepts exactly what the RFC accepts. -/
theorem C53_standard (e : Registry.Entry) (he : e ∈ f.registry) (H : Bytes → Bytes) (hH : e.IsHash P.sha256 P.sha512 H) :
    let S := e.suite H
    f.lookup e.name = some e.oid ∧
    (∀ (pk0 sk0 a b c : Bytes) (seed : Nat → Bytes), pk0.length = 4 + 2 * e.n → sk0.length = 4 + e.idxLen + 4 * e.n →
      a.length = e.n → b.length = e.n → c.length = e.n → seed e.n = a ++ b ++ c →
      f.keypair P pk0 sk0 e.oid seed = some (0, Rfc.toByte e.oid 4 ++ S.root a c ++ c,
        Rfc.toByte e.oid 4 ++ Rfc.toByte 0 e.idxLen ++ a ++ b ++ S.root a c ++ c)) ∧
    (∀ (a b r c sm m : Bytes) (idx l0 : Nat), a.length = e.n → b.length = e.n → r.length = e.n → c.length = e.n →
      idx < 2 ^ e.h - 1 → sm.length = e.sigLen + m.length →
      f.sign P (Rfc.toByte e.oid 4 ++ Rfc.toByte idx e.idxLen ++ a ++ b ++ r ++ c) sm l0 m = some
        { ret := 0
          sk := Rfc.toByte e.oid 4 ++ Rfc.toByte (idx + 1) e.idxLen ++ a ++ b ++ r ++ c
          sm := S.sign a b r c idx m ++ m
          smlen := e.sigLen + m.length }) ∧
    (∀ (r c sig m buf : Bytes) (l0 : Nat), r.length = e.n → c.length = e.n → sig.length = e.sigLen →
      e.sigLen + m.length < 2 ^ 64 → e.sigLen + m.length ≤ buf.length →
      ∃ o, f.signOpen P buf l0 (sig ++ m) (e.sigLen + m.length) (Rfc.toByte e.oid 4 ++ r ++ c) = some o ∧
        (S.verify r c m sig → o.ret = 0 ∧ o.mlen = m.length ∧ o.m.take m.length = m) ∧
        (¬ S.verify r c m sig → o.ret = -1 ∧ o.mlen = 0 ∧ o.m.take m.length = List.replicate m.length 0)) := by
  intro S
  obtain ⟨hp, _⟩ := registry_parse he
  obtain ⟨H', hc, _, hu⟩ := C53_hash_function (P := P) he
  cases hu H hH
  have hsig := sigLen_eq he slowSkBytes
  obtain ⟨g, hskb, _, _⟩ := Family.facts (P := P) hp
  set p := params16 slowSkBytes (funcOf e.family) e.n e.pad e.h e.d 0 with hpdef
  have hS : suiteOf p H = S := rfl
  have hidx : p.index_bytes = e.idxLen := rfl
  have hcore : coreHash P p.func p.n = some H := hc
  refine ⟨?_, ?_, ?_, ?_⟩
  · cases f with
    | xmss => exact (C01_xmss_str_to_oid e.name e.oid).mpr ⟨e, he, rfl, rfl⟩
    | xmssmt => exact (C01_xmssmt_str_to_oid e.name e.oid).mpr ⟨e, he, rfl, rfl⟩
  · intro pk0 sk0 a b c seed h1 h2 h3 h4 h5 h6
    obtain ⟨k, rfl, rfl, rfl, hh, hv, ek, _⟩ := C30_key_layout hp hcore pk0 sk0 h1
      (by rw [hskb, h2, hidx]; show _ = 4 + (e.idxLen + 4 * e.n); omega) seed a b c h6 h3 h4 h5
    rw [ek]
    have : k.root = S.root k.skSeed k.pubSeed := hh
    simp only [Key.pk, Key.sk, this, hidx, List.append_assoc]
  · intro a b r c sm m idx l0 h1 h2 h3 h4 h5 h6
    have := C23_sign_is_rfc hp hcore ⟨a, b, r, c⟩ ⟨h1, h2, h3, h4⟩ idx h5 sm l0 m (by rw [h6, hsig])
    rw [hS, hsig] at this
    simpa only [Key.sk, hidx, List.append_assoc] using this
  · intro r c sig m buf l0 h1 h2 h3 h4 h5
    obtain ⟨o, e1, _, e2⟩ := C23_open_is_rfc hp hcore ⟨[], [], r, c⟩ h1 h2 sig m buf l0 (by rw [h3, hsig])
      (by rw [hsig]; exact h4) (by rw [hsig]; exact h5)
    obtain ⟨o', e1', e3⟩ := C24_open_output (P := P) hp ⟨[], [], r, c⟩ h1 h2 sig m buf l0 (by rw [h3, hsig])
      (by rw [hsig]; exact h4) (by rw [hsig]; exact h5)
    rw [e1] at e1'
    cases e1'
    rw [hS] at e2
    refine ⟨o, ?_, ?_, ?_⟩
    · rw [hsig] at e1
      simpa only [Key.pk, List.append_assoc] using e1
    · intro hv
      rcases e3 with h | ⟨h, _⟩
      · exact h
      · rw [e2.mpr hv] at h; cases h
    · intro hv
      rcases e3 with ⟨h, _⟩ | h
      · exact absurd (e2.mp h) hv
      · exact h

/-- **C53 for the fast implementation**: the public key and the first `2^h - 1` signatures of every history are those of
the standard.  (For 40/8 and 60/12: fewer than `2^20` calls.) -/
theorem C53_standard_fast (e : Registry.Entry) (he : e ∈ f.registry) (H : Bytes → Bytes) (hH : e.IsHash P.sha256 P.sha512 H)
    (pk0 sk0 a b c : Bytes) (seed : Nat → Bytes) (hpk : pk0.length = 4 + 2 * e.n)
    (hsk : ∃ p, f.parseFast e.oid = some p ∧ sk0.length = 4 + p.sk_bytes)
    (ha : a.length = e.n) (hb : b.length = e.n) (hc : c.length = e.n) (hs : seed e.n = a ++ b ++ c) :
    let S := e.suite H
    ∃ sk, f.keypairFast P pk0 sk0 e.oid seed = some (0, Rfc.toByte e.oid 4 ++ S.root a c ++ c, sk) ∧
      ∀ cs : List Call, (∀ x ∈ cs, x.sm.length = e.sigLen + x.msg.length) → cs.length ≤ 2 ^ e.h - 1 →
        (e.d ≤ e.h / e.d / 2 + 2 ∨ cs.length < 2 ^ (e.h / e.d * (e.h / e.d / 2 + 2))) →
        ∃ outs : List FastOut, signAllFast P f sk cs = some outs ∧ outs.length = cs.length ∧
          ∀ (j : Nat) (o : FastOut) (x : Call), outs[j]? = some o → cs[j]? = some x → o.ret = 0 ∧
            o.sm = S.sign a b (S.root a c) c j x.msg ++ x.msg ∧ o.smlen = e.sigLen + x.msg.length := by
  intro S
  obtain ⟨_, hp⟩ := registry_parse he
  obtain ⟨H', hcore, _, hu⟩ := C53_hash_function (P := P) he
  cases hu H hH
  have hsig := sigLen_eq he fastSkBytes
  set p := params16 fastSkBytes (funcOf e.family) e.n e.pad e.h e.d 0 with hpdef
  obtain ⟨p', hp', hskl⟩ := hsk
  rw [hp] at hp'
  cases hp'
  have hS : suiteOf p H = S := rfl
  obtain ⟨k, hv, hh, hseed, sk, _, ek, hist⟩ := fast_history hp (show coreHash P p.func p.n = some H from hcore) pk0 sk0 hpk
    hskl seed (by show (seed e.n).length = 3 * e.n; rw [hs]; simp [ha, hb, hc]; omega)
  have hseed : a ++ b ++ c = k.skSeed ++ k.skPrf ++ k.pubSeed := by rw [← hs]; exact hseed
  obtain ⟨h1, h3⟩ := List.append_inj hseed (by simp only [List.length_append, ha, hb, hv.skSeed, hv.skPrf]; rfl)
  obtain ⟨h1, h2⟩ := List.append_inj h1 (by rw [ha, hv.skSeed]; rfl)
  subst h1 h2 h3
  have hr : k.root = S.root k.skSeed k.pubSeed := hh
  refine ⟨_, by rw [ek, Key.pk, hr, List.append_assoc], ?_⟩
  intro cs hcs hlen hlim
  have hpos : 0 < 2 ^ e.h := Nat.two_pow_pos _
  obtain ⟨os, e1, l1, h1⟩ := hist cs (by intro x hx; rw [hsig, hcs x hx])
    ⟨fun h => by have h : e.h = 40 := h; rw [h] at hlen; omega, hlim⟩
  refine ⟨_, e1, by simp [l1], ?_⟩
  intro j o x hj hx
  have hjl : j < cs.length := (List.getElem?_eq_some_iff.mp hx).1
  obtain ⟨o', ho', post⟩ := h1 j x hx
  rw [List.getElem?_map, ho'] at hj
  simp only [Option.map_some, Option.some.injEq] at hj
  subst hj
  obtain ⟨c1, c2, c3, _⟩ := post.ok (by show j + 1 < 2 ^ e.h; omega)
  rw [hsig] at c2 c3
  refine ⟨c1, ?_, c2⟩
  simp only [c3]
  rw [List.drop_of_length_le (by rw [hcs x (List.mem_of_getElem? hx)]), List.append_nil, hS, ← hr]

-- The hash of XMSS-SHA2_10_256 is the given SHA-256, that of XMSS-SHAKE256_10_192 is SHAKE256 cut to 24 bytes.
example : ∃ e ∈ Family.xmss.registry, e.name = "XMSS-SHA2_10_256" ∧ e.IsHash P.sha256 P.sha512 P.sha256 :=
  ⟨Registry.xmss[0], by decide +kernel, by decide +kernel, Or.inr (Or.inl ⟨rfl, fun _ => rfl⟩)⟩
example : ∃ e ∈ Family.xmss.registry, e.name = "XMSS-SHAKE256_10_192" ∧ e.IsHash P.sha256 P.sha512 (shake256 24) :=
  ⟨Registry.xmss[18], by decide +kernel, by decide +kernel, fun x => (C38_shake256 24 x).2⟩

end Xmss
