import Verif.Model.Api
import Verif.Spec.Registry
import Verif.Proof.Good
import Mathlib.Data.List.Nodup
/-
C01, C02, C03: parameter names, OIDs, and sizes.
-/
namespace Xmss
open Registry

/-- The C constants for the hash families. -/
def funcOf : Family → Func
  | .sha2 => .sha2
  | .shake128 => .shake128
  | .shake256 => .shake256

/-! ### Names -/

/-- An if-chain of string comparisons as a table lookup. -/
def lookupStr (s : String) : List (String × Nat) → Option Nat
  | [] => none
  | (k, v) :: rest => if s = k then some v else lookupStr s rest

theorem lookupStr_iff {t : List (String × Nat)} (h : (t.map (·.1)).Nodup) (s : String) (v : Nat) :
    lookupStr s t = some v ↔ (s, v) ∈ t := by
  induction t with
  | nil => simp [lookupStr]
  | cons x t ih =>
    obtain ⟨k, w⟩ := x
    simp only [List.map_cons, List.nodup_cons] at h
    simp only [lookupStr, List.mem_cons, Prod.mk.injEq]
    split
    · next e =>
      subst e
      constructor
      · intro hh; cases hh; simp
      · rintro (⟨_, rfl⟩ | hh)
        · rfl
        · exact absurd (List.mem_map.mpr ⟨_, hh, rfl⟩) h.1
    · next e => rw [ih h.2]; simp [e]

def xmssNames : List (String × Nat) :=
    [("XMSS-SHA2_10_256", 1), ("XMSS-SHA2_16_256", 2), ("XMSS-SHA2_20_256", 3), ("XMSS-SHA2_10_512", 4),
     ("XMSS-SHA2_16_512", 5), ("XMSS-SHA2_20_512", 6), ("XMSS-SHAKE_10_256", 7), ("XMSS-SHAKE_16_256", 8),
     ("XMSS-SHAKE_20_256", 9), ("XMSS-SHAKE_10_512", 10), ("XMSS-SHAKE_16_512", 11), ("XMSS-SHAKE_20_512", 12),
     ("XMSS-SHA2_10_192", 13), ("XMSS-SHA2_16_192", 14), ("XMSS-SHA2_20_192", 15), ("XMSS-SHAKE256_10_256", 16),
     ("XMSS-SHAKE256_16_256", 17), ("XMSS-SHAKE256_20_256", 18), ("XMSS-SHAKE256_10_192", 19),
     ("XMSS-SHAKE256_16_192", 20), ("XMSS-SHAKE256_20_192", 21)]

def xmssmtNames : List (String × Nat) :=
    [("XMSSMT-SHA2_20/2_256", 1), ("XMSSMT-SHA2_20/4_256", 2), ("XMSSMT-SHA2_40/2_256", 3),
     ("XMSSMT-SHA2_40/4_256", 4), ("XMSSMT-SHA2_40/8_256", 5), ("XMSSMT-SHA2_60/3_256", 6),
     ("XMSSMT-SHA2_60/6_256", 7), ("XMSSMT-SHA2_60/12_256", 8), ("XMSSMT-SHA2_20/2_512", 9),
     ("XMSSMT-SHA2_20/4_512", 10), ("XMSSMT-SHA2_40/2_512", 11), ("XMSSMT-SHA2_40/4_512", 12),
     ("XMSSMT-SHA2_40/8_512", 13), ("XMSSMT-SHA2_60/3_512", 14), ("XMSSMT-SHA2_60/6_512", 15),
     ("XMSSMT-SHA2_60/12_512", 16), ("XMSSMT-SHAKE_20/2_256", 17), ("XMSSMT-SHAKE_20/4_256", 18),
     ("XMSSMT-SHAKE_40/2_256", 19), ("XMSSMT-SHAKE_40/4_256", 20), ("XMSSMT-SHAKE_40/8_256", 21),
     ("XMSSMT-SHAKE_60/3_256", 22), ("XMSSMT-SHAKE_60/6_256", 23), ("XMSSMT-SHAKE_60/12_256", 24),
     ("XMSSMT-SHAKE_20/2_512", 25), ("XMSSMT-SHAKE_20/4_512", 26), ("XMSSMT-SHAKE_40/2_512", 27),
     ("XMSSMT-SHAKE_40/4_512", 28), ("XMSSMT-SHAKE_40/8_512", 29), ("XMSSMT-SHAKE_60/3_512", 30),
     ("XMSSMT-SHAKE_60/6_512", 31), ("XMSSMT-SHAKE_60/12_512", 32), ("XMSSMT-SHA2_20/2_192", 33),
     ("XMSSMT-SHA2_20/4_192", 34), ("XMSSMT-SHA2_40/2_192", 35), ("XMSSMT-SHA2_40/4_192", 36),
     ("XMSSMT-SHA2_40/8_192", 37), ("XMSSMT-SHA2_60/3_192", 38), ("XMSSMT-SHA2_60/6_192", 39),
     ("XMSSMT-SHA2_60/12_192", 40), ("XMSSMT-SHAKE256_20/2_256", 41), ("XMSSMT-SHAKE256_20/4_256", 42),
     ("XMSSMT-SHAKE256_40/2_256", 43), ("XMSSMT-SHAKE256_40/4_256", 44), ("XMSSMT-SHAKE256_40/8_256", 45),
     ("XMSSMT-SHAKE256_60/3_256", 46), ("XMSSMT-SHAKE256_60/6_256", 47), ("XMSSMT-SHAKE256_60/12_256", 48),
     ("XMSSMT-SHAKE256_20/2_192", 49), ("XMSSMT-SHAKE256_20/4_192", 50), ("XMSSMT-SHAKE256_40/2_192", 51),
     ("XMSSMT-SHAKE256_40/4_192", 52), ("XMSSMT-SHAKE256_40/8_192", 53), ("XMSSMT-SHAKE256_60/3_192", 54),
     ("XMSSMT-SHAKE256_60/6_192", 55), ("XMSSMT-SHAKE256_60/12_192", 56)]

theorem xmssNames_eq : Registry.xmss.map (fun e => (e.name, e.oid)) = xmssNames := by decide +kernel
theorem xmssmtNames_eq : Registry.xmssmt.map (fun e => (e.name, e.oid)) = xmssmtNames := by decide +kernel
theorem xmssNames_nodup : (xmssNames.map (·.1)).Nodup := by decide +kernel
theorem xmssmtNames_nodup : (xmssmtNames.map (·.1)).Nodup := by decide +kernel

theorem mem_names {t : List Entry} {l : List (String × Nat)} (h : t.map (fun e => (e.name, e.oid)) = l) (s : String)
    (oid : Nat) : (s, oid) ∈ l ↔ ∃ e ∈ t, e.name = s ∧ e.oid = oid := by
  rw [← h]; simp only [List.mem_map, Prod.mk.injEq]

/-- **C01 (XMSS names).**  `xmss_str_to_oid` succeeds exactly on the registered names, with the registered OID. -/
theorem C01_xmss_str_to_oid (s : String) (oid : Nat) :
    xmssStrToOid s = some oid ↔ ∃ e ∈ Registry.xmss, e.name = s ∧ e.oid = oid := by
  have : xmssStrToOid s = lookupStr s xmssNames := rfl
  rw [this, lookupStr_iff xmssNames_nodup, mem_names xmssNames_eq]

/-- **C01 (XMSS^MT names).** -/
theorem C01_xmssmt_str_to_oid (s : String) (oid : Nat) :
    xmssmtStrToOid s = some oid ↔ ∃ e ∈ Registry.xmssmt, e.name = s ∧ e.oid = oid := by
  have : xmssmtStrToOid s = lookupStr s xmssmtNames := rfl
  rw [this, lookupStr_iff xmssmtNames_nodup, mem_names xmssmtNames_eq]

/-! ### OIDs -/

theorem xmssOidFunc_range {oid : Nat} {f : Func} (h : xmssOidFunc oid = some f) : 1 ≤ oid ∧ oid ≤ 21 := by
  unfold xmssOidFunc at h
  split_ifs at h with h1 h2 h3 <;> simp at * <;> omega

theorem xmssmtOidFunc_range {oid : Nat} {f : Func} (h : xmssmtOidFunc oid = some f) : 1 ≤ oid ∧ oid ≤ 56 := by
  unfold xmssmtOidFunc at h
  split_ifs at h with h1 h2 h3 <;> simp at * <;> omega

/-- The parameter structure `p` describes the registered set `e` (W = 16, no BDS retention). -/
structure Describes (p : Params) (e : Entry) : Prop where
  func : p.func = funcOf e.family
  n : p.n = e.n
  pad : p.padding_len = e.pad
  h : p.full_height = e.h
  d : p.d = e.d
  w : p.wots_w = 16
  k : p.bds_k = 0

instance (p : Params) (e : Entry) : Decidable (Describes p e) :=
  decidable_of_iff (p.func = funcOf e.family ∧ p.n = e.n ∧ p.padding_len = e.pad ∧ p.full_height = e.h ∧ p.d = e.d ∧
    p.wots_w = 16 ∧ p.bds_k = 0) ⟨fun ⟨a, b, c, d, e, f, g⟩ => ⟨a, b, c, d, e, f, g⟩,
      fun ⟨a, b, c, d, e, f, g⟩ => ⟨a, b, c, d, e, f, g⟩⟩

/-- The result of `xmss_xmssmt_initialize_params` for w = 16. -/
def params16 (skBytes : Params → Nat) (func : Func) (n pad h d k : Nat) : Params :=
  let p : Params := {
    func := func, n := n, padding_len := pad, wots_w := 16, wots_log_w := 4, wots_len1 := 8 * n / 4, wots_len2 := 3,
    wots_len := 8 * n / 4 + 3, wots_sig_bytes := (8 * n / 4 + 3) * n, full_height := h, tree_height := h / d, d := d,
    index_bytes := if d = 1 then 4 else (h + 7) / 8,
    sig_bytes := (if d = 1 then 4 else (h + 7) / 8) + n + d * ((8 * n / 4 + 3) * n) + h * n,
    pk_bytes := 2 * n, sk_bytes := 0, bds_k := k }
  { p with sk_bytes := skBytes p }

theorem initializeParams_16 (skBytes : Params → Nat) (func : Func) (n pad h d k : Nat) :
    initializeParams skBytes func n pad h d 16 k = some (params16 skBytes func n pad h d k) := rfl

/-- Every accepted XMSS OID is registered, and the structure is the one for the registered set. -/
theorem xmss_parse_entry {skBytes : Params → Nat} {oid : Nat} {p : Params} (h : xmssParseOid skBytes oid = some p) :
    ∃ e ∈ Registry.xmss, e.oid = oid ∧ p = params16 skBytes (funcOf e.family) e.n e.pad e.h e.d 0 := by
  have hr : 1 ≤ oid ∧ oid ≤ 21 := by
    unfold xmssParseOid at h
    split at h
    · next hf _ _ => exact xmssOidFunc_range hf
    · cases h
  obtain ⟨h1, h2⟩ := hr
  have key : ∀ k < 21, xmssOidFunc (k + 1) = some (funcOf (Registry.xmss.getD k default).family) ∧
      xmssOidN (k + 1) = some ((Registry.xmss.getD k default).n, (Registry.xmss.getD k default).pad) ∧
      xmssOidHeight (k + 1) = some (Registry.xmss.getD k default).h ∧
      (Registry.xmss.getD k default).oid = k + 1 ∧ (Registry.xmss.getD k default).d = 1 ∧
      Registry.xmss.getD k default ∈ Registry.xmss := by decide +kernel
  obtain ⟨k, rfl⟩ : ∃ k, oid = k + 1 := ⟨oid - 1, by omega⟩
  obtain ⟨f1, f2, f3, e2, e3, e4⟩ := key k (by omega)
  refine ⟨Registry.xmss.getD k default, e4, e2, ?_⟩
  rw [xmssParseOid, f1, f2, f3] at h
  simp only [initializeParams_16, Option.some.injEq] at h
  rw [← h, e3]

theorem xmssmt_parse_entry {skBytes : Params → Nat} {oid : Nat} {p : Params} (h : xmssmtParseOid skBytes oid = some p) :
    ∃ e ∈ Registry.xmssmt, e.oid = oid ∧ p = params16 skBytes (funcOf e.family) e.n e.pad e.h e.d 0 := by
  have hr : 1 ≤ oid ∧ oid ≤ 56 := by
    unfold xmssmtParseOid at h
    split at h
    · next hf _ _ _ => exact xmssmtOidFunc_range hf
    · cases h
  obtain ⟨h1, h2⟩ := hr
  have key : ∀ k < 56, xmssmtOidFunc (k + 1) = some (funcOf (Registry.xmssmt.getD k default).family) ∧
      xmssmtOidN (k + 1) = some ((Registry.xmssmt.getD k default).n, (Registry.xmssmt.getD k default).pad) ∧
      xmssmtOidHeight (k + 1) = some (Registry.xmssmt.getD k default).h ∧
      xmssmtOidD (k + 1) = some (Registry.xmssmt.getD k default).d ∧
      (Registry.xmssmt.getD k default).oid = k + 1 ∧
      Registry.xmssmt.getD k default ∈ Registry.xmssmt := by decide +kernel
  obtain ⟨k, rfl⟩ : ∃ k, oid = k + 1 := ⟨oid - 1, by omega⟩
  obtain ⟨f1, f2, f3, f4, e2, e4⟩ := key k (by omega)
  refine ⟨Registry.xmssmt.getD k default, e4, e2, ?_⟩
  rw [xmssmtParseOid, f1, f2, f3, f4] at h
  simp only [initializeParams_16, Option.some.injEq] at h
  exact h.symm

theorem describes_params16 (skBytes : Params → Nat) (e : Entry) :
    Describes (params16 skBytes (funcOf e.family) e.n e.pad e.h e.d 0) e := ⟨rfl, rfl, rfl, rfl, rfl, rfl, rfl⟩

/-- **C01 (XMSS OIDs).**  An accepted OID yields the parameters of the registered set with that OID. -/
theorem C01_xmss_parse_oid (skBytes : Params → Nat) (oid : Nat) (p : Params) (h : xmssParseOid skBytes oid = some p) :
    ∃ e ∈ Registry.xmss, e.oid = oid ∧ Describes p e := by
  obtain ⟨e, he, ho, rfl⟩ := xmss_parse_entry h
  exact ⟨e, he, ho, describes_params16 _ _⟩

/-- **C01 (XMSS^MT OIDs).** -/
theorem C01_xmssmt_parse_oid (skBytes : Params → Nat) (oid : Nat) (p : Params)
    (h : xmssmtParseOid skBytes oid = some p) : ∃ e ∈ Registry.xmssmt, e.oid = oid ∧ Describes p e := by
  obtain ⟨e, he, ho, rfl⟩ := xmssmt_parse_entry h
  exact ⟨e, he, ho, describes_params16 _ _⟩

theorem xmss_oid_nodup : (Registry.xmss.map (·.oid)).Nodup := by decide +kernel
theorem xmssmt_oid_nodup : (Registry.xmssmt.map (·.oid)).Nodup := by decide +kernel

theorem nodup_map_inj {t : List Entry} (h : (t.map (·.oid)).Nodup) {a b : Entry} (ha : a ∈ t) (hb : b ∈ t)
    (hab : a.oid = b.oid) : a = b := List.inj_on_of_nodup_map h ha hb hab

/-- **C02 (XMSS).**  Exactly the OIDs 1..0x15 are accepted, whichever core is linked. -/
theorem C02_xmss_oids (skBytes : Params → Nat) (oid : Nat) :
    (xmssParseOid skBytes oid).isSome ↔ 1 ≤ oid ∧ oid ≤ 0x15 := by
  constructor
  · intro h
    obtain ⟨p, hp⟩ := Option.isSome_iff_exists.mp h
    obtain ⟨e, he, ho, _⟩ := xmss_parse_entry hp
    have : ∀ e ∈ Registry.xmss, 1 ≤ e.oid ∧ e.oid ≤ 0x15 := by decide +kernel
    exact ho ▸ this e he
  · rintro ⟨h1, h2⟩
    have : ∀ k < 0x15, (xmssOidFunc (k + 1)).isSome ∧ (xmssOidN (k + 1)).isSome ∧ (xmssOidHeight (k + 1)).isSome := by
      decide +kernel
    obtain ⟨k, rfl⟩ : ∃ k, oid = k + 1 := ⟨oid - 1, by omega⟩
    obtain ⟨a, b, c⟩ := this k (by omega)
    obtain ⟨a', ha⟩ := Option.isSome_iff_exists.mp a
    obtain ⟨b', hb⟩ := Option.isSome_iff_exists.mp b
    obtain ⟨c', hc⟩ := Option.isSome_iff_exists.mp c
    rw [xmssParseOid, ha, hb, hc]
    rfl

/-- **C02 (XMSS^MT).**  Exactly the OIDs 1..0x38 are accepted. -/
theorem C02_xmssmt_oids (skBytes : Params → Nat) (oid : Nat) :
    (xmssmtParseOid skBytes oid).isSome ↔ 1 ≤ oid ∧ oid ≤ 0x38 := by
  constructor
  · intro h
    obtain ⟨p, hp⟩ := Option.isSome_iff_exists.mp h
    obtain ⟨e, he, ho, _⟩ := xmssmt_parse_entry hp
    have : ∀ e ∈ Registry.xmssmt, 1 ≤ e.oid ∧ e.oid ≤ 0x38 := by decide +kernel
    exact ho ▸ this e he
  · rintro ⟨h1, h2⟩
    have : ∀ k < 0x38, (xmssmtOidFunc (k + 1)).isSome ∧ (xmssmtOidN (k + 1)).isSome ∧
        (xmssmtOidHeight (k + 1)).isSome ∧ (xmssmtOidD (k + 1)).isSome := by decide +kernel
    obtain ⟨k, rfl⟩ : ∃ k, oid = k + 1 := ⟨oid - 1, by omega⟩
    obtain ⟨a, b, c, d⟩ := this k (by omega)
    obtain ⟨a', ha⟩ := Option.isSome_iff_exists.mp a
    obtain ⟨b', hb⟩ := Option.isSome_iff_exists.mp b
    obtain ⟨c', hc⟩ := Option.isSome_iff_exists.mp c
    obtain ⟨d', hd⟩ := Option.isSome_iff_exists.mp d
    rw [xmssmtParseOid, ha, hb, hc, hd]
    rfl

/-- **C02 (API).**  On an OID outside the table, key generation returns -1 and leaves both key buffers alone. -/
theorem C02_keypair_rejects (P : Prims) (pk sk : Bytes) (oid : Nat) (seed : Nat → Bytes) :
    (¬ (1 ≤ oid ∧ oid ≤ 0x15) → xmssKeypair P pk sk oid seed = some (-1, pk, sk)) ∧
    (¬ (1 ≤ oid ∧ oid ≤ 0x38) → xmssmtKeypair P pk sk oid seed = some (-1, pk, sk)) := by
  constructor
  · intro h
    have : parseXmss oid = none := by
      have := (C02_xmss_oids slowSkBytes oid).not.mpr h
      simpa [parseXmss] using this
    rw [xmssKeypair, apiKeypair, this]
  · intro h
    have : parseXmssmt oid = none := by
      have := (C02_xmssmt_oids slowSkBytes oid).not.mpr h
      simpa [parseXmssmt] using this
    rw [xmssmtKeypair, apiKeypair, this]

/-- The OID field is the big-endian number in the first four bytes, when its first byte is below 0x80 (with a larger
first byte the C code shifts into the sign bit). -/
theorem readOid_eq (b rest : Bytes) (hb : b.length = 4) (ht : (b.headD 0).toNat < 128) :
    readOid (b ++ rest) = some (Rfc.toNat b) := by
  obtain ⟨b0, b1, b2, b3, rfl⟩ : ∃ b0 b1 b2 b3, b = [b0, b1, b2, b3] := by
    match b, hb with
    | [b0, b1, b2, b3], _ => exact ⟨_, _, _, _, rfl⟩
  have hr : rd ([b0, b1, b2, b3] ++ rest) 0 4 = some [b0, b1, b2, b3] := by
    have := rd_append [] [b0, b1, b2, b3] rest (off := 0) (len := 4) rfl rfl
    simpa using this
  rw [readOid, hr]
  simp only [Option.bind_eq_bind, Option.bind_some]
  simp only [List.headD_cons] at ht
  rw [if_neg (by omega)]
  congr 1
  have e1 : b2.toNat <<< 8 = b2.toNat * 2 ^ 8 := Nat.shiftLeft_eq _ _
  have h0 := b0.toNat_lt; have h1 := b1.toNat_lt; have h2 := b2.toNat_lt; have h3 := b3.toNat_lt
  rw [Nat.zero_or, Nat.or_comm b3.toNat, ← Nat.shiftLeft_add_eq_or_of_lt (by omega : b3.toNat < 2 ^ 8),
    Nat.or_comm _ (b1.toNat <<< 16), ← Nat.shiftLeft_add_eq_or_of_lt (by rw [Nat.shiftLeft_eq]; omega),
    Nat.or_comm _ (b0.toNat <<< 24), ← Nat.shiftLeft_add_eq_or_of_lt (by simp only [Nat.shiftLeft_eq]; omega)]
  simp only [Nat.shiftLeft_eq, Rfc.toNat, List.foldl_cons, List.foldl_nil]
  omega

/-- **C02 (API).**  On a key whose OID field is not registered, sign and open return -1 and change nothing. -/
theorem C02_sign_open_reject (P : Prims) (b rest sm m : Bytes) (len0 smlen : Nat) (hb : b.length = 4)
    (ht : (b.headD 0).toNat < 128) :
    (¬ (1 ≤ Rfc.toNat b ∧ Rfc.toNat b ≤ 0x15) →
      xmssSign P (b ++ rest) sm len0 m = some { ret := -1, sk := b ++ rest, sm := sm, smlen := len0 } ∧
      xmssSignOpen P m len0 sm smlen (b ++ rest) = some { ret := -1, m := m, mlen := len0 }) ∧
    (¬ (1 ≤ Rfc.toNat b ∧ Rfc.toNat b ≤ 0x38) →
      xmssmtSign P (b ++ rest) sm len0 m = some { ret := -1, sk := b ++ rest, sm := sm, smlen := len0 } ∧
      xmssmtSignOpen P m len0 sm smlen (b ++ rest) = some { ret := -1, m := m, mlen := len0 }) := by
  constructor
  · intro h
    have : parseXmss (Rfc.toNat b) = none := by
      have := (C02_xmss_oids slowSkBytes (Rfc.toNat b)).not.mpr h
      simpa [parseXmss] using this
    constructor
    · rw [xmssSign, apiSign, readOid_eq b rest hb ht]; simp [this]
    · rw [xmssSignOpen, apiOpen, readOid_eq b rest hb ht]; simp [this]
  · intro h
    have : parseXmssmt (Rfc.toNat b) = none := by
      have := (C02_xmssmt_oids slowSkBytes (Rfc.toNat b)).not.mpr h
      simpa [parseXmssmt] using this
    constructor
    · rw [xmssmtSign, apiSign, readOid_eq b rest hb ht]; simp [this]
    · rw [xmssmtSignOpen, apiOpen, readOid_eq b rest hb ht]; simp [this]

/-- **C01 (round trip).**  A name accepted by `xmss_str_to_oid` is the name of the set that `xmss_parse_oid` then fills
in; likewise for XMSS^MT. -/
theorem C01_name_describes_params (skBytes : Params → Nat) (s : String) (oid : Nat) :
    (xmssStrToOid s = some oid →
      ∃ p e, xmssParseOid skBytes oid = some p ∧ e ∈ Registry.xmss ∧ e.name = s ∧ Describes p e) ∧
    (xmssmtStrToOid s = some oid →
      ∃ p e, xmssmtParseOid skBytes oid = some p ∧ e ∈ Registry.xmssmt ∧ e.name = s ∧ Describes p e) := by
  constructor
  · intro h
    obtain ⟨e, he, hn, ho⟩ := (C01_xmss_str_to_oid s oid).mp h
    have hrange : ∀ e ∈ Registry.xmss, 1 ≤ e.oid ∧ e.oid ≤ 0x15 := by decide +kernel
    obtain ⟨p, hp⟩ := Option.isSome_iff_exists.mp ((C02_xmss_oids skBytes oid).mpr (ho ▸ hrange e he))
    obtain ⟨e', he', ho', hd⟩ := C01_xmss_parse_oid skBytes oid p hp
    have : e' = e := nodup_map_inj xmss_oid_nodup he' he (ho'.trans ho.symm)
    exact ⟨p, e, hp, he, hn, this ▸ hd⟩
  · intro h
    obtain ⟨e, he, hn, ho⟩ := (C01_xmssmt_str_to_oid s oid).mp h
    have hrange : ∀ e ∈ Registry.xmssmt, 1 ≤ e.oid ∧ e.oid ≤ 0x38 := by decide +kernel
    obtain ⟨p, hp⟩ := Option.isSome_iff_exists.mp ((C02_xmssmt_oids skBytes oid).mpr (ho ▸ hrange e he))
    obtain ⟨e', he', ho', hd⟩ := C01_xmssmt_parse_oid skBytes oid p hp
    have : e' = e := nodup_map_inj xmssmt_oid_nodup he' he (ho'.trans ho.symm)
    exact ⟨p, e, hp, he, hn, this ▸ hd⟩

/-- **C01 (different names, different OIDs).** -/
theorem C01_injective (s t : String) (oid : Nat) :
    (xmssStrToOid s = some oid → xmssStrToOid t = some oid → s = t) ∧
    (xmssmtStrToOid s = some oid → xmssmtStrToOid t = some oid → s = t) := by
  constructor
  · intro h h'
    obtain ⟨e, he, hn, ho⟩ := (C01_xmss_str_to_oid s oid).mp h
    obtain ⟨e', he', hn', ho'⟩ := (C01_xmss_str_to_oid t oid).mp h'
    rw [← hn, ← hn', nodup_map_inj xmss_oid_nodup he he' (ho.trans ho'.symm)]
  · intro h h'
    obtain ⟨e, he, hn, ho⟩ := (C01_xmssmt_str_to_oid s oid).mp h
    obtain ⟨e', he', hn', ho'⟩ := (C01_xmssmt_str_to_oid t oid).mp h'
    rw [← hn, ← hn', nodup_map_inj xmssmt_oid_nodup he he' (ho.trans ho'.symm)]

-- Non-vacuity.
example : xmssStrToOid "XMSS-SHAKE256_16_192" = some 0x14 := by decide +kernel
example : xmssmtStrToOid "XMSSMT-SHA2_60/12_512" = some 0x10 := by decide +kernel
example : xmssStrToOid "XMSS-SHA2_10_256 " = none := by decide +kernel
example : (xmssParseOid fastSkBytes 0x14).isSome := by decide +kernel

/-! ### Sizes -/

/-- Everything that makes a parameter structure usable holds for all registered sets. -/
theorem params16_good (skBytes : Params → Nat) (e : Entry) (h : e ∈ Registry.xmss ∨ e ∈ Registry.xmssmt) :
    (params16 skBytes (funcOf e.family) e.n e.pad e.h e.d 0).Good := by
  have key : ∀ e, (e ∈ Registry.xmss ∨ e ∈ Registry.xmssmt) →
      0 < e.n ∧ 8 * e.n / 4 * 4 = 8 * e.n ∧ 8 * e.n / 4 * (16 - 1) < 16 ^ 3 ∧ 0 < e.d ∧ e.h / e.d * e.d = e.h ∧
      0 < e.h / e.d ∧ e.h / e.d < 31 ∧ e.h < 64 ∧ (if e.d = 1 then 4 else (e.h + 7) / 8) ≤ 8 ∧
      2 ^ e.h ≤ 256 ^ (if e.d = 1 then 4 else (e.h + 7) / 8) ∧
      (if e.d = 1 then 4 else (e.h + 7) / 8) + e.n + e.d * ((8 * e.n / 4 + 3) * e.n) + e.h * e.n < 2 ^ 32 ∧
      e.pad ≤ e.n ∧
      8 * e.n / 4 = (8 * e.n + Nat.log2 16 - 1) / Nat.log2 16 ∧
      3 = Nat.log2 ((8 * e.n + Nat.log2 16 - 1) / Nat.log2 16 * (16 - 1)) / Nat.log2 16 + 1 := by
    intro e he
    have h1 : ∀ e ∈ Registry.xmss ++ Registry.xmssmt,
      0 < e.n ∧ 8 * e.n / 4 * 4 = 8 * e.n ∧ 8 * e.n / 4 * (16 - 1) < 16 ^ 3 ∧ 0 < e.d ∧ e.h / e.d * e.d = e.h ∧
      0 < e.h / e.d ∧ e.h / e.d < 31 ∧ e.h < 64 ∧ (if e.d = 1 then 4 else (e.h + 7) / 8) ≤ 8 ∧
      2 ^ e.h ≤ 256 ^ (if e.d = 1 then 4 else (e.h + 7) / 8) ∧
      (if e.d = 1 then 4 else (e.h + 7) / 8) + e.n + e.d * ((8 * e.n / 4 + 3) * e.n) + e.h * e.n < 2 ^ 32 ∧
      e.pad ≤ e.n ∧
      8 * e.n / 4 = (8 * e.n + Nat.log2 16 - 1) / Nat.log2 16 ∧
      3 = Nat.log2 ((8 * e.n + Nat.log2 16 - 1) / Nat.log2 16 * (16 - 1)) / Nat.log2 16 + 1 := by decide +kernel
    exact h1 e (List.mem_append.mpr he)
  obtain ⟨a1, a2, a3, a4, a5, a6, a7, a8, a9, a10, a11, a12, a13, a14⟩ := key e h
  exact { n_pos := a1, w_eq := rfl, logw_mem := Or.inr rfl, len1_mul := a2, csum_fits := a3, len2_pos := (by decide : 0 < 3)
          len2_mod := (by decide : 3 * 4 % 8 ≠ 0), len_eq := rfl, sig_wots := rfl, d_pos := a4, height := a5, th_pos := a6, th_lt := a7
          fh_lt := a8, idx_le := a9, idx_fits := a10, sig_eq := rfl, sig_lt := a11, pad_le := a12, pk_eq := rfl
          rfc_len1 := a13, rfc_len2 := a14 }

theorem xmss_parse_good {skBytes : Params → Nat} {oid : Nat} {p : Params} (h : xmssParseOid skBytes oid = some p) :
    p.Good := by
  obtain ⟨e, he, _, rfl⟩ := xmss_parse_entry h
  exact params16_good _ e (Or.inl he)

theorem xmssmt_parse_good {skBytes : Params → Nat} {oid : Nat} {p : Params} (h : xmssmtParseOid skBytes oid = some p) :
    p.Good := by
  obtain ⟨e, he, _, rfl⟩ := xmssmt_parse_entry h
  exact params16_good _ e (Or.inr he)

/-- The RFC 8391 sizes of a parameter structure, with real-number-free ceilings and floors:
`len_1 = ⌈8n / lg w⌉` and `len_2 = ⌊lg(len_1 (w-1)) / lg w⌋ + 1`. -/
structure RfcSizes (p : Params) (indexBytes : Nat) : Prop where
  lgw : 2 ^ p.wots_log_w = p.wots_w
  len1_ge : 8 * p.n ≤ p.wots_len1 * p.wots_log_w
  len1_lt : (p.wots_len1 - 1) * p.wots_log_w < 8 * p.n
  len2_lo : p.wots_w ^ (p.wots_len2 - 1) ≤ p.wots_len1 * (p.wots_w - 1)
  len2_hi : p.wots_len1 * (p.wots_w - 1) < p.wots_w ^ p.wots_len2
  len : p.wots_len = p.wots_len1 + p.wots_len2
  wots_sig : p.wots_sig_bytes = p.wots_len * p.n
  height : p.tree_height * p.d = p.full_height
  index : p.index_bytes = indexBytes
  sig : p.sig_bytes = indexBytes + p.n + p.d * (p.wots_len * p.n) + p.full_height * p.n
  pk : p.pk_bytes = 2 * p.n

/-- **C03.**  All accepted OIDs have the RFC sizes; the index field has 4 bytes for XMSS and `⌈h/8⌉` for XMSS^MT and
can hold every index. -/
theorem C03_sizes (skBytes : Params → Nat) (oid : Nat) (p : Params) :
    (xmssParseOid skBytes oid = some p → RfcSizes p 4 ∧ p.d = 1 ∧ 2 ^ p.full_height ≤ 256 ^ p.index_bytes) ∧
    (xmssmtParseOid skBytes oid = some p → RfcSizes p ((p.full_height + 7) / 8) ∧ 1 < p.d ∧
      2 ^ p.full_height ≤ 256 ^ p.index_bytes) := by
  constructor
  · intro h
    have g := xmss_parse_good h
    obtain ⟨e, he, _, rfl⟩ := xmss_parse_entry h
    have hh : ∀ e ∈ Registry.xmss, e.d = 1 ∧ (8 * e.n / 4 - 1) * 4 < 8 * e.n ∧ 16 ^ 2 ≤ 8 * e.n / 4 * 15 := by
      decide +kernel
    obtain ⟨hd, b1, b2⟩ := hh e he
    refine ⟨⟨rfl, g.len1_mul.ge, b1, b2, g.csum_fits, rfl, rfl, g.height, ?_, ?_, rfl⟩, hd, g.idx_fits⟩
    · simp [params16, hd]
    · simp [params16, hd]
  · intro h
    have g := xmssmt_parse_good h
    obtain ⟨e, he, _, rfl⟩ := xmssmt_parse_entry h
    have hh : ∀ e ∈ Registry.xmssmt, 1 < e.d ∧ (8 * e.n / 4 - 1) * 4 < 8 * e.n ∧ 16 ^ 2 ≤ 8 * e.n / 4 * 15 := by
      decide +kernel
    obtain ⟨hd, b1, b2⟩ := hh e he
    have hd1 : e.d ≠ 1 := by omega
    refine ⟨⟨rfl, g.len1_mul.ge, b1, b2, g.csum_fits, rfl, rfl, g.height, ?_, ?_, rfl⟩, hd, g.idx_fits⟩
    · simp [params16, hd1]
    · simp [params16, hd1]

/-- **C03 (hard coded len_2).**  For arbitrary `n` the constants of `xmss_xmssmt_initialize_params` are the RFC values
exactly in the stated ranges of n: 22..85 for w = 4, 9..136 for w = 16, 2..257 for w = 256. -/
theorem C03_len2_range (skBytes : Params → Nat) (func : Func) (n pad h d w k : Nat) (p : Params)
    (hp : initializeParams skBytes func n pad h d w k = some p) :
    (p.wots_w ^ (p.wots_len2 - 1) ≤ p.wots_len1 * (p.wots_w - 1) ∧
      p.wots_len1 * (p.wots_w - 1) < p.wots_w ^ p.wots_len2) ↔
    (w = 4 ∧ 22 ≤ n ∧ n ≤ 85) ∨ (w = 16 ∧ 9 ≤ n ∧ n ≤ 136) ∨ (w = 256 ∧ 2 ≤ n ∧ n ≤ 257) := by
  have key : (w = 4 ∧ p.wots_w = 4 ∧ p.wots_len1 = 4 * n ∧ p.wots_len2 = 5) ∨
      (w = 16 ∧ p.wots_w = 16 ∧ p.wots_len1 = 2 * n ∧ p.wots_len2 = 3) ∨
      (w = 256 ∧ p.wots_w = 256 ∧ p.wots_len1 = n ∧ p.wots_len2 = 2) := by
    unfold initializeParams at hp
    by_cases h1 : w = 4
    · rw [if_pos h1] at hp
      simp only [Option.some.injEq] at hp
      subst hp
      exact Or.inl ⟨h1, h1, by show 8 * n / 2 = _; omega, rfl⟩
    by_cases h2 : w = 16
    · rw [if_neg h1, if_pos h2] at hp
      simp only [Option.some.injEq] at hp
      subst hp
      exact Or.inr (Or.inl ⟨h2, h2, by show 8 * n / 4 = _; omega, rfl⟩)
    by_cases h3 : w = 256
    · rw [if_neg h1, if_neg h2, if_pos h3] at hp
      simp only [Option.some.injEq] at hp
      subst hp
      exact Or.inr (Or.inr ⟨h3, h3, by show 8 * n / 8 = _; omega, rfl⟩)
    rw [if_neg h1, if_neg h2, if_neg h3] at hp
    cases hp
  rcases key with ⟨rfl, a, b, c⟩ | ⟨rfl, a, b, c⟩ | ⟨rfl, a, b, c⟩
  all_goals
    rw [a, b, c]
    norm_num
    omega

/-- Key sizes announced to callers: simple implementation. -/
theorem C03_sk_bytes (oid : Nat) (p : Params) :
    (parseXmss oid = some p → p.sk_bytes = p.index_bytes + 4 * p.n) ∧
    (parseXmssmt oid = some p → p.sk_bytes = p.index_bytes + 4 * p.n) := by
  constructor
  · intro h; obtain ⟨e, _, _, rfl⟩ := xmss_parse_entry h; rfl
  · intro h; obtain ⟨e, _, _, rfl⟩ := xmssmt_parse_entry h; rfl

-- Non-vacuity: the largest set, XMSSMT-SHA2_60/12_512.
example : ∃ p, parseXmssmt 0x10 = some p ∧ p.sig_bytes = 104520 ∧ p.sk_bytes = 264 := ⟨_, rfl, by decide, by decide⟩

end Xmss
