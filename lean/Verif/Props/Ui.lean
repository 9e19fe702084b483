import Verif.Model.Ui
import Verif.Props.History
/-
C41-C45: the command line tools.
-/
namespace Xmss

variable {P : Prims} {f : Family} {oid : Nat} {p : Params} {H : Bytes → Bytes}

/-- Fresh buffers have the size that was asked for (their content is arbitrary). -/
def Fresh (junk : Nat → Bytes) : Prop := ∀ k, (junk k).length = k

theorem Key.sk_length {k : Key} (hk : k.Valid p) (hskb : p.sk_bytes = p.index_bytes + 4 * p.n) (oid idx : Nat) :
    (k.sk p oid idx).length = 4 + p.sk_bytes := by
  simp [Key.sk, toByte_length, hk.skSeed, hk.skPrf, hk.root, hk.pubSeed, hskb]; omega

theorem Key.sk_take (k : Key) (p : Params) (oid idx : Nat) : (k.sk p oid idx).take 4 = Rfc.toByte oid 4 :=
  List.take_left' (toByte_length _ _)

theorem bytesToUll_oid {oid : Nat} (h : oid < 2 ^ 8) : bytesToUll (Rfc.toByte oid 4) = some oid := by
  rw [bytesToUll_eq (by rw [toByte_length]; omega), toNat_toByte, Nat.mod_eq_of_lt]
  have : (256 : Nat) ^ 4 = 4294967296 := by norm_num
  omega

/-- Reading a key-pair file `OID || public key || secret key || anything`. -/
theorem uiSignRead_eq {oidp : Nat} {pp : Params} (hpp : f.parse oidp = some pp) (hp : f.parse oid = some p)
    (pkb sk tail : Bytes) (hpk : pkb.length = pp.pk_bytes) (hsk : sk.length = 4 + p.sk_bytes)
    (hoid : sk.take 4 = Rfc.toByte oid 4) :
    uiSignRead f (Rfc.toByte oidp 4 ++ pkb ++ sk ++ tail) = some (some (4 + pp.pk_bytes, p, sk)) := by
  obtain ⟨_, _, ho1, _⟩ := Family.facts (P := ⟨fun _ => List.replicate 32 0, fun _ => List.replicate 64 0, by simp, by simp⟩) hpp
  obtain ⟨_, _, ho2, _⟩ := Family.facts (P := ⟨fun _ => List.replicate 32 0, fun _ => List.replicate 64 0, by simp, by simp⟩) hp
  have r1 : rd (Rfc.toByte oidp 4 ++ pkb ++ sk ++ tail) 0 oidLen = some (Rfc.toByte oidp 4) := by
    have := rd_append [] (Rfc.toByte oidp 4) (pkb ++ sk ++ tail) (off := 0) (len := oidLen) rfl (toByte_length _ _).symm
    simpa using this
  have r2 : rd (Rfc.toByte oidp 4 ++ pkb ++ sk ++ tail) (oidLen + pp.pk_bytes) oidLen = some (Rfc.toByte oid 4) := by
    have := rd_append (Rfc.toByte oidp 4 ++ pkb) (sk.take 4) (sk.drop 4 ++ tail) (off := oidLen + pp.pk_bytes) (len := oidLen)
      (by rw [List.length_append, toByte_length, hpk]; rfl) (by rw [hoid, toByte_length]; rfl)
    rw [hoid] at this
    rw [← this, ← hoid]
    congr 1
    rw [List.append_assoc _ (sk.take 4), ← List.append_assoc (sk.take 4), List.take_append_drop, List.append_assoc]
  have r3 : rd (Rfc.toByte oidp 4 ++ pkb ++ sk ++ tail) (oidLen + pp.pk_bytes) (oidLen + p.sk_bytes) = some sk :=
    rd_append (Rfc.toByte oidp 4 ++ pkb) sk tail (by rw [List.length_append, toByte_length, hpk]; rfl) (by rw [hsk]; rfl)
  rw [uiSignRead, r1]
  simp only [Option.bind_eq_bind, Option.bind_some, bytesToUll_oid ho1, hpp, r2, bytesToUll_oid ho2, hp, r3]
  rfl

/-- **C41.**  For every key-pair file (a public key with any accepted OID, then a secret key with any accepted OID and
any content, then anything) and every message file, xmss_sign/xmssmt_sign exits 0, the key file keeps its length, its
public key, both OIDs and whatever follows, its secret key is the key updated by one `sign` call, and the output is
exactly the signed message of that call. -/
theorem C41_updates_in_place {oidp : Nat} {pp : Params} (hpp : f.parse oidp = some pp) (hp : f.parse oid = some p)
    (junk : Nat → Bytes) (hj : Fresh junk)
    (pkb sk tail m : Bytes) (hpk : pkb.length = pp.pk_bytes) (hsk : sk.length = 4 + p.sk_bytes)
    (hoid : sk.take 4 = Rfc.toByte oid 4) :
    ∃ o, f.sign P sk (junk (p.sig_bytes + m.length)) 0 m = some o ∧
      uiSign P f junk (some (Rfc.toByte oidp 4 ++ pkb ++ sk ++ tail)) (some m) =
        some { exit := 0, keyFile := some (Rfc.toByte oidp 4 ++ pkb ++ o.sk ++ tail), stdout := o.sm } ∧
      o.sk.length = sk.length ∧ o.sk.take 4 = sk.take 4 ∧ o.sm.length = p.sig_bytes + m.length ∧
      o.sm.drop p.sig_bytes = m := by
  obtain ⟨g, hskb, ho, H, hH⟩ := Family.facts (P := P) hp
  have hHl := Family.hash_length hp hH
  obtain ⟨k, hk, idx, hi, rfl⟩ := Key.sk_surj hskb sk hsk hoid
  have hread := uiSignRead_eq hpp hp pkb _ tail hpk hsk hoid
  have hjl := hj (p.sig_bytes + m.length)
  have hc := sign_call hp hH k hk idx hi (junk (p.sig_bytes + m.length)) (junk 0).length m (by rw [hjl])
  obtain ⟨o, ho1, hol, hsl, _⟩ := C20_sign_safe (P := P) hp (k.sk p oid idx) (junk (p.sig_bytes + m.length)) (junk 0).length m
    hsk hoid (by rw [hjl])
  have h0 : (junk 0).length = 0 := hj 0
  rw [ho1] at hc
  have hc := Option.some.inj hc
  have hosk : o.sk = (nextKey p idx k).sk p oid (nextIdx p idx) := by rw [hc]
  have hlen : o.smlen = p.sig_bytes + m.length := by rw [hc]
  have hdrop : o.sm.drop p.sig_bytes = m := by
    have e : o.sm = o.sm.take p.sig_bytes ++ m := by
      have : ∀ a : Bytes, a.length = p.sig_bytes → (a ++ m ++ []).take p.sig_bytes = a := by
        intro a ha; rw [List.append_nil, List.take_left' ha]
      rw [hc]
      simp only [show (junk (p.sig_bytes + m.length)).drop (p.sig_bytes + m.length) = [] from
        List.drop_of_length_le (by rw [hjl])]
      have hx : o.sm.length = p.sig_bytes + m.length := by rw [hsl, hjl]
      rw [hc] at hx
      simp only [show (junk (p.sig_bytes + m.length)).drop (p.sig_bytes + m.length) = [] from
        List.drop_of_length_le (by rw [hjl]), List.length_append, List.length_nil] at hx
      rw [this _ (by omega), List.append_nil]
    rw [e, List.drop_left' (by rw [List.length_take, hsl, hjl]; omega)]
  refine ⟨o, by rw [← h0]; exact ho1, ?_, hol, by rw [hosk, Key.sk_take, Key.sk_take], by rw [hsl, hjl], hdrop⟩
  have hsplit : o.sk = Rfc.toByte oid 4 ++ o.sk.drop 4 := by
    conv_lhs => rw [← List.take_append_drop 4 o.sk]
    rw [hosk, Key.sk_take]
  have hd4 : (o.sk.drop 4).length = p.sk_bytes := by rw [List.length_drop, hol, hsk]; omega
  have hw : wr (Rfc.toByte oidp 4 ++ pkb ++ k.sk p oid idx ++ tail) (4 + pp.pk_bytes + oidLen)
      ((o.sk.drop oidLen).take p.sk_bytes) = some (Rfc.toByte oidp 4 ++ pkb ++ o.sk ++ tail) := by
    have e1 : Rfc.toByte oidp 4 ++ pkb ++ k.sk p oid idx ++ tail =
        (Rfc.toByte oidp 4 ++ pkb ++ Rfc.toByte oid 4) ++ (k.sk p oid idx).drop 4 ++ tail := by
      conv_lhs => rw [← List.take_append_drop 4 (k.sk p oid idx), Key.sk_take]
      simp
    rw [show oidLen = 4 from rfl, List.take_of_length_le hd4.le, e1, wr_append _ _ _ _
      (by simp only [List.length_append, toByte_length, hpk]) (by rw [hd4, List.length_drop, hsk]; omega)]
    conv_rhs => rw [hsplit]
    simp
  have hr : rd o.sm 0 o.smlen = some o.sm := by
    rw [rd_some (by rw [hlen, hsl, hjl]; omega), List.drop_zero, List.take_of_length_le (by rw [hlen, hsl, hjl])]
  rw [uiSign]
  simp only [hread, Option.bind_eq_bind, Option.bind_some, ho1, hw, hr]

/-- Runs of the tool one after the other on the same key file. -/
def uiSignAll (P : Prims) (f : Family) (junk : Nat → Bytes) : Option Bytes → List Bytes → Option (List SignRun)
  | _, [] => some []
  | key, m :: ms => do
    let r ← uiSign P f junk key (some m)
    let rs ← uiSignAll P f junk r.keyFile ms
    some (r :: rs)

/-- **C41 (histories).**  Any number of runs of the tool on one key file output exactly what the same number of `sign`
calls on the secret key would. -/
theorem C41_history {oidp : Nat} {pp : Params} (hpp : f.parse oidp = some pp) (hp : f.parse oid = some p)
    (junk : Nat → Bytes) (hj : Fresh junk) (pkb tail : Bytes) (hpk : pkb.length = pp.pk_bytes) (ms : List Bytes) :
    ∀ sk : Bytes, sk.length = 4 + p.sk_bytes → sk.take 4 = Rfc.toByte oid 4 →
    ∃ outs, signAll P f sk (ms.map fun m => ⟨junk (p.sig_bytes + m.length), 0, m⟩) = some outs ∧
      uiSignAll P f junk (some (Rfc.toByte oidp 4 ++ pkb ++ sk ++ tail)) ms = some (outs.map fun o =>
        { exit := 0, keyFile := some (Rfc.toByte oidp 4 ++ pkb ++ o.sk ++ tail), stdout := o.sm }) := by
  induction ms with
  | nil => intro sk _ _; exact ⟨[], rfl, rfl⟩
  | cons m ms ih =>
    intro sk hsk hoid
    obtain ⟨o, h1, h2, h3, h4, _, _⟩ := C41_updates_in_place (P := P) hpp hp junk hj pkb sk tail m hpk hsk hoid
    obtain ⟨os, h5, h6⟩ := ih o.sk (by rw [h3, hsk]) (by rw [h4, hoid])
    refine ⟨o :: os, ?_, ?_⟩
    · rw [List.map_cons, signAll]
      simp only [h1, Option.bind_eq_bind, Option.bind_some, h5]
    · rw [uiSignAll]
      simp only [h2, Option.bind_eq_bind, Option.bind_some, h6, List.map_cons]

/-- **C43 is false.**  For every exhausted key file (index at least 2^h; the library returns -2) the tool exits with
status 0 and writes `sig_bytes + mlen` bytes, the message preceded by whatever the fresh buffer contained. -/
theorem C43_fails {oidp : Nat} {pp : Params} (hpp : f.parse oidp = some pp) (hp : f.parse oid = some p)
    (junk : Nat → Bytes) (hj : Fresh junk)
    (pkb tail m : Bytes) (hpk : pkb.length = pp.pk_bytes) (k : Key) (hk : k.Valid p) (idx : Nat)
    (h1 : 2 ^ p.full_height ≤ idx) (h2 : idx < 256 ^ p.index_bytes) :
    ∃ o r, f.sign P (k.sk p oid idx) (junk (p.sig_bytes + m.length)) 0 m = some o ∧ o.ret = -2 ∧
      uiSign P f junk (some (Rfc.toByte oidp 4 ++ pkb ++ k.sk p oid idx ++ tail)) (some m) = some r ∧
      r.exit = 0 ∧ r.stdout = (junk (p.sig_bytes + m.length)).take p.sig_bytes ++ m := by
  obtain ⟨g, hskb, ho, H, hH⟩ := Family.facts (P := P) hp
  obtain ⟨o, e1, e2, e3, e4, e5, e6⟩ := C41_updates_in_place (P := P) hpp hp junk hj pkb (k.sk p oid idx) tail m hpk
    (Key.sk_length hk hskb oid idx) (Key.sk_take k p oid idx)
  have hjl := hj (p.sig_bytes + m.length)
  have hc := sign_call hp hH k hk idx h2 (junk (p.sig_bytes + m.length)) 0 m (by rw [hjl])
  rw [e1] at hc
  have hc := Option.some.inj hc
  have hpos : 0 < 2 ^ p.full_height := by positivity
  refine ⟨o, _, e1, ?_, e2, rfl, ?_⟩
  · rw [hc]; simp only; rw [if_neg (by omega)]
  · rw [hc]
    simp only
    rw [if_neg (by omega), if_neg (by omega), List.drop_of_length_le (by rw [hjl]), List.append_nil]

/-- **C44.**  For a key file that starts with a public key (anything may follow) and every signature file of at least
`sig_bytes` bytes, the exit status of xmss_open/xmssmt_open is 0 if the signature verifies under RFC 8391 and -1 (a
failure status) otherwise; what follows the public key in the file is ignored. -/
theorem C44_exit_status (hp : f.parse oid = some p) (hH : coreHash P p.func p.n = some H) (junk : Nat → Bytes)
    (hj : Fresh junk) (k : Key) (hr : k.root.length = p.n) (hps : k.pubSeed.length = p.n) (tail sig msg : Bytes)
    (hs : sig.length = p.sig_bytes) (h64 : p.sig_bytes + msg.length < 2 ^ 64) :
    ∃ status : Int, uiOpen P f junk (some (k.pk oid ++ tail)) (some (sig ++ msg)) = some status ∧
      (status = 0 ∨ status = -1) ∧ (status = 0 ↔ (suiteOf p H).verify k.root k.pubSeed msg sig) := by
  obtain ⟨g, hskb, ho, _⟩ := Family.facts (P := P) hp
  have hl : (sig ++ msg).length = p.sig_bytes + msg.length := by rw [List.length_append, hs]
  obtain ⟨o, h1, h2, h3⟩ := C23_open_is_rfc hp hH k hr hps sig msg (junk (sig ++ msg).length) (junk 0).length hs h64
    (by rw [hj, hl])
  have r1 : rd (k.pk oid ++ tail) 0 oidLen = some (Rfc.toByte oid 4) := by
    have := rd_append [] (Rfc.toByte oid 4) (k.root ++ k.pubSeed ++ tail) (off := 0) (len := oidLen) rfl (toByte_length _ _).symm
    simpa [Key.pk] using this
  have r2 : rd (k.pk oid ++ tail) 0 (oidLen + p.pk_bytes) = some (k.pk oid) := by
    have := rd_append [] (k.pk oid) tail (off := 0) (len := oidLen + p.pk_bytes) rfl
      (by simp [Key.pk, toByte_length, hr, hps, g.pk_eq, oidLen]; omega)
    simpa using this
  refine ⟨o.ret, ?_, h2, h3⟩
  rw [uiOpen]
  simp only [r1, Option.bind_eq_bind, Option.bind_some, bytesToUll_oid ho, hp, r2]
  rw [hl]
  rw [hl] at h1
  simp only [h1, Option.bind_some]

/-- **C44 is false for short signature files.**  With fewer than `sig_bytes` bytes in the signature file the run is
undefined behaviour. -/
theorem C44_fails_for_short_files (hp : f.parse oid = some p) (junk : Nat → Bytes) (k : Key)
    (hr : k.root.length = p.n) (hps : k.pubSeed.length = p.n) (tail sm : Bytes) (h : sm.length < p.sig_bytes) :
    uiOpen P f junk (some (k.pk oid ++ tail)) (some sm) = none := by
  obtain ⟨g, hskb, ho, _⟩ := Family.facts (P := P) hp
  have hsb := g.sig_lt
  have r1 : rd (k.pk oid ++ tail) 0 oidLen = some (Rfc.toByte oid 4) := by
    have := rd_append [] (Rfc.toByte oid 4) (k.root ++ k.pubSeed ++ tail) (off := 0) (len := oidLen) rfl (toByte_length _ _).symm
    simpa [Key.pk] using this
  have r2 : rd (k.pk oid ++ tail) 0 (oidLen + p.pk_bytes) = some (k.pk oid) := by
    have := rd_append [] (k.pk oid) tail (off := 0) (len := oidLen + p.pk_bytes) rfl
      (by simp [Key.pk, toByte_length, hr, hps, g.pk_eq, oidLen]; omega)
    simpa using this
  rw [uiOpen]
  simp only [r1, Option.bind_eq_bind, Option.bind_some, bytesToUll_oid ho, hp, r2]
  rw [C21_fails_for_short_input hp k sm _ _ _ h (by omega)]
  simp only [Option.bind_none]

/-- **C44.**  Files that cannot be opened and unknown OIDs give a failure status. -/
theorem C44_other_failures (junk : Nat → Bytes) (key sm : Option Bytes) :
    (key = none ∨ sm = none → uiOpen P f junk key sm = some (-1)) ∧
    (∀ (o : Nat) (rest s : Bytes), o < 2 ^ 32 → f.parse o = none →
      uiOpen P f junk (some (Rfc.toByte o 4 ++ rest)) (some s) = some (-1)) := by
  constructor
  · intro h
    cases key with
    | none => rfl
    | some key =>
      cases sm with
      | none => rfl
      | some sm => rcases h with h | h <;> cases h
  · intro o rest s ho hp
    have r1 : rd (Rfc.toByte o 4 ++ rest) 0 oidLen = some (Rfc.toByte o 4) := by
      have := rd_append [] (Rfc.toByte o 4) rest (off := 0) (len := oidLen) rfl (toByte_length _ _).symm
      simpa using this
    have hb : bytesToUll (Rfc.toByte o 4) = some o := by
      rw [bytesToUll_eq (by rw [toByte_length]; omega), toNat_toByte, Nat.mod_eq_of_lt]
      have : (256 : Nat) ^ 4 = 2 ^ 32 := by norm_num
      omega
    rw [uiOpen]
    simp only [r1, Option.bind_eq_bind, Option.bind_some, hb, hp]

/-- **C45.**  xmss_keypair/xmssmt_keypair with a name that is not in the registry, or with a wrong number of arguments,
exits with a failure status and writes nothing. -/
theorem C45_unknown_names (junk seed : Nat → Bytes) (args : List String)
    (h : ∀ name, args = [name] → match f with
      | .xmss => ∀ e ∈ Registry.xmss, e.name ≠ name
      | .xmssmt => ∀ e ∈ Registry.xmssmt, e.name ≠ name) :
    uiKeypair P f junk seed args = some { exit := -1, stdout := [] } := by
  unfold uiKeypair
  split
  · next name =>
    have hn := h name rfl
    have hs : f.strToOid name = none := by
      cases f with
      | xmss =>
        cases hx : xmssStrToOid name with
        | none => exact hx
        | some o => obtain ⟨e, he, h1, _⟩ := (C01_xmss_str_to_oid name o).1 hx; exact absurd h1 (hn e he)
      | xmssmt =>
        cases hx : xmssmtStrToOid name with
        | none => exact hx
        | some o => obtain ⟨e, he, h1, _⟩ := (C01_xmssmt_str_to_oid name o).1 hx; exact absurd h1 (hn e he)
    have h0 : f.parse 0 = none := by
      cases f with
      | xmss => rfl
      | xmssmt => rfl
    rw [hs]
    simp only [Option.getD_none, h0]
  · rfl

/-- **C45.**  With a known name it exits 0 and writes the public key followed by the secret key that keypair produces
for that name's OID, `4 + pk_bytes + 4 + sk_bytes` bytes. -/
theorem C45_known_names (name : String) (hn : f.strToOid name = some oid) (hp : f.parse oid = some p)
    (junk seed : Nat → Bytes) (hj : Fresh junk) (hs : (seed p.n).length = 3 * p.n) :
    ∃ pk sk, f.keypair P (junk (4 + p.pk_bytes)) (junk (4 + p.sk_bytes)) oid seed = some (0, pk, sk) ∧
      pk.length = 4 + p.pk_bytes ∧ sk.length = 4 + p.sk_bytes ∧
      uiKeypair P f junk seed [name] = some { exit := 0, stdout := pk ++ sk } := by
  obtain ⟨g, hskb, ho, H, hH⟩ := Family.facts (P := P) hp
  obtain ⟨k, hk, _, _, hkp⟩ := keypair_key hp hH (junk (4 + p.pk_bytes)) (junk (4 + p.sk_bytes)) (hj _) (hj _) seed hs
  refine ⟨_, _, hkp, ?_, Key.sk_length hk hskb oid 0, ?_⟩
  · simp [Key.pk, toByte_length, hk.root, hk.pubSeed, g.pk_eq]; omega
  · rw [uiKeypair]
    simp only [hn, Option.getD_some, hp, show oidLen = 4 from rfl, hkp, Option.bind_eq_bind, Option.bind_some]

/-! ### C42: crashes -/

/-- The key file while the first `j` bytes of the new secret key have reached it. -/
def keyFileAt (A old T newKey : Bytes) (j : Nat) : Bytes := A ++ newKey.take j ++ old.drop j ++ T

/-- What holds in every state of a run. -/
def IoInv (A old T newKey sm : Bytes) (s : IoState) : Prop :=
  ∃ j ≤ newKey.length, s.keyFile = keyFileAt A old T newKey j ∧ s.keyPos = A.length + j ∧
    ((s.todo = [.writeKey, .writeOut, .closeKey, .exit] ∧ j = 0 ∧ s.keyPend = [] ∧ s.out = [] ∧ s.outPend = []) ∨
     (s.todo = [.writeOut, .closeKey, .exit] ∧ s.keyPend = newKey.drop j ∧ s.out = [] ∧ s.outPend = []) ∨
     (s.todo = [.closeKey, .exit] ∧ s.keyPend = newKey.drop j ∧ s.out ++ s.outPend = sm) ∨
     (s.todo = [.exit] ∧ j = newKey.length ∧ s.keyPend = [] ∧ s.out ++ s.outPend = sm) ∨
     (s.todo = [] ∧ j = newKey.length ∧ s.keyPend = [] ∧ s.out = sm ∧ s.outPend = []))

theorem ioInv_reach {mayFlush : Nat → Prop} {A old T newKey sm : Bytes} (hl : old.length = newKey.length) {s : IoState}
    (h : IoReach mayFlush newKey sm (ioStart (A ++ old ++ T) A.length) s) : IoInv A old T newKey sm s := by
  induction h with
  | refl => exact ⟨0, Nat.zero_le _, by simp [ioStart, keyFileAt], rfl, Or.inl ⟨rfl, rfl, rfl, rfl, rfl⟩⟩
  | @step s t _ hs ih =>
    obtain ⟨j, hj, hf, hpos, hc⟩ := ih
    cases hs with
    | writeKey t htodo =>
      rcases hc with ⟨h1, h2, h3, h4, h5⟩ | ⟨h1, _⟩ | ⟨h1, _⟩ | ⟨h1, _⟩ | ⟨h1, _⟩ <;> rw [h1] at htodo <;> cases htodo
      exact ⟨j, hj, hf, hpos, Or.inr (Or.inl ⟨rfl, by simp [h2, h3], h4, h5⟩)⟩
    | writeOut t htodo =>
      rcases hc with ⟨h1, _⟩ | ⟨h1, h3, h4, h5⟩ | ⟨h1, _⟩ | ⟨h1, _⟩ | ⟨h1, _⟩ <;> rw [h1] at htodo <;> cases htodo
      exact ⟨j, hj, hf, hpos, Or.inr (Or.inr (Or.inl ⟨rfl, h3, by simp [h4, h5]⟩))⟩
    | flushKey n file hn0 hn hw hwr =>
      have key : s.keyPend = newKey.drop j → file = keyFileAt A old T newKey (j + n) ∧ j + n ≤ newKey.length ∧
          s.keyPend.drop n = newKey.drop (j + n) := by
        intro h3
        rw [h3, List.length_drop] at hn
        refine ⟨?_, by omega, by rw [h3, List.drop_drop]⟩
        rw [hf, hpos, keyFileAt, h3] at hwr
        have e : A ++ newKey.take j ++ old.drop j ++ T =
            (A ++ newKey.take j) ++ (old.drop j).take n ++ (old.drop (j + n) ++ T) := by
          rw [← List.drop_drop, List.append_assoc _ ((old.drop j).take n), ← List.append_assoc ((old.drop j).take n),
            List.take_append_drop, List.append_assoc]
        rw [e, wr_append _ _ _ _ (by simp; omega) (by simp; omega)] at hwr
        have hwr := Option.some.inj hwr
        rw [← hwr, keyFileAt, List.take_add]
        simp
      rcases hc with ⟨h1, h2, h3, h4, h5⟩ | ⟨h1, h3, h4, h5⟩ | ⟨h1, h3, h4⟩ | ⟨h1, h2, h3, h4⟩ | ⟨h1, h2, h3, h4, h5⟩
      · rw [h3] at hn; simp at hn; omega
      · obtain ⟨k1, k2, k3⟩ := key h3
        exact ⟨j + n, k2, k1, by simp only [hpos]; omega, Or.inr (Or.inl ⟨h1, k3, h4, h5⟩)⟩
      · obtain ⟨k1, k2, k3⟩ := key h3
        exact ⟨j + n, k2, k1, by simp only [hpos]; omega, Or.inr (Or.inr (Or.inl ⟨h1, k3, h4⟩))⟩
      · rw [h3] at hn; simp at hn; omega
      · rw [h3] at hn; simp at hn; omega
    | flushOut n hn0 hn hw =>
      rcases hc with ⟨h1, h2, h3, h4, h5⟩ | ⟨h1, h3, h4, h5⟩ | ⟨h1, h3, h4⟩ | ⟨h1, h2, h3, h4⟩ | ⟨h1, h2, h3, h4, h5⟩
      · rw [h5] at hn; simp at hn; omega
      · rw [h5] at hn; simp at hn; omega
      · exact ⟨j, hj, hf, hpos, Or.inr (Or.inr (Or.inl ⟨h1, h3, by simp only [List.append_assoc, List.take_append_drop, h4]⟩))⟩
      · exact ⟨j, hj, hf, hpos, Or.inr (Or.inr (Or.inr (Or.inl ⟨h1, h2, h3,
          by simp only [List.append_assoc, List.take_append_drop, h4]⟩)))⟩
      · rw [h5] at hn; simp at hn; omega
    | closeKey t htodo hp =>
      rcases hc with ⟨h1, _⟩ | ⟨h1, _⟩ | ⟨h1, h3, h4⟩ | ⟨h1, _⟩ | ⟨h1, _⟩ <;> rw [h1] at htodo <;> cases htodo
      have hjl : j = newKey.length := by
        have := congrArg List.length h3
        rw [hp, List.length_drop, List.length_nil] at this
        omega
      exact ⟨j, hj, hf, hpos, Or.inr (Or.inr (Or.inr (Or.inl ⟨rfl, hjl, hp, h4⟩)))⟩
    | exit t htodo hp =>
      rcases hc with ⟨h1, _⟩ | ⟨h1, _⟩ | ⟨h1, _⟩ | ⟨h1, h2, h3, h4⟩ | ⟨h1, _⟩ <;> rw [h1] at htodo <;> cases htodo
      rw [hp, List.append_nil] at h4
      exact ⟨j, hj, hf, hpos, Or.inr (Or.inr (Or.inr (Or.inr ⟨rfl, h2, h3, h4, hp⟩)))⟩

theorem ioInv_out {mayFlush : Nat → Prop} {A old T newKey sm : Bytes} (hl : old.length = newKey.length)
    (hno : ∀ n ≤ sm.length, ¬ mayFlush n) {s : IoState}
    (h : IoReach mayFlush newKey sm (ioStart (A ++ old ++ T) A.length) s) :
    s.todo = [.exit] ∨ s.todo = [] ∨ s.out = [] := by
  induction h with
  | refl => exact Or.inr (Or.inr rfl)
  | @step s t hr hs ih =>
    obtain ⟨j, hj, hf, hpos, hc⟩ := ioInv_reach hl hr
    cases hs with
    | writeKey t htodo => rcases ih with h | h | h <;> first | (rw [h] at htodo; cases htodo) | exact Or.inr (Or.inr h)
    | writeOut t htodo => rcases ih with h | h | h <;> first | (rw [h] at htodo; cases htodo) | exact Or.inr (Or.inr h)
    | flushKey n file hn0 hn hw hwr => exact ih
    | flushOut n hn0 hn hw =>
      rcases ih with h | h | h
      · exact Or.inl h
      · exact Or.inr (Or.inl h)
      · rcases hw with hw | hw
        · exfalso
          refine hno _ ?_ hw
          rcases hc with ⟨h1, h2, h3, h4, h5⟩ | ⟨h1, h3, h4, h5⟩ | ⟨h1, h3, h4⟩ | ⟨h1, h2, h3, h4⟩ | ⟨h1, h2, h3, h4, h5⟩
          · rw [h5]; simp
          · rw [h5]; simp
          · rw [← h4]; simp
          · rw [← h4]; simp
          · rw [h5]; simp
        · rcases hc with ⟨h1, _⟩ | ⟨h1, _⟩ | ⟨h1, _⟩ | ⟨h1, _⟩ | ⟨h1, _⟩
          · rw [h1] at hw; cases hw
          · rw [h1] at hw; cases hw
          · rw [h1] at hw; cases hw
          · exact Or.inl h1
          · exact Or.inr (Or.inl h1)
    | closeKey t htodo hp =>
      rcases hc with ⟨h1, _⟩ | ⟨h1, _⟩ | ⟨h1, h3, h4⟩ | ⟨h1, _⟩ | ⟨h1, _⟩ <;> rw [h1] at htodo <;> cases htodo
      exact Or.inl rfl
    | exit t htodo hp =>
      rcases hc with ⟨h1, _⟩ | ⟨h1, _⟩ | ⟨h1, _⟩ | ⟨h1, h2, h3, h4⟩ | ⟨h1, _⟩ <;> rw [h1] at htodo <;> cases htodo
      exact Or.inr (Or.inl rfl)

/-- What the statements after `XMSS_SIGN` work on, for a key-pair file `A || OID || secret key || T`. -/
theorem ioStart_file (A sk T : Bytes) : A ++ sk ++ T = (A ++ sk.take 4) ++ sk.drop 4 ++ T := by
  rw [List.append_assoc A (sk.take 4), List.take_append_drop]

/-- **C42 is false.**  If the C library passes buffered output on when a stream holds `sig_bytes + mlen` bytes (as every
library does once its buffer is exceeded, and an unbuffered stream always does), then for every usable key and every
message there is a moment at which the complete signed message has left the process while the key file still is the old
one, byte for byte.  If the process is killed there, the next run of the tool signs any other message with the same
index. -/
theorem C42_fails {oidp : Nat} {pp : Params} (hpp : f.parse oidp = some pp) (hp : f.parse oid = some p)
    (junk : Nat → Bytes) (hj : Fresh junk) (pkb T m : Bytes) (hpk : pkb.length = pp.pk_bytes) (k : Key) (hk : k.Valid p)
    (idx : Nat) (hidx : idx < 2 ^ p.full_height - 1) (mayFlush : Nat → Prop)
    (hflush : mayFlush (p.sig_bytes + m.length)) :
    let A := Rfc.toByte oidp 4 ++ pkb
    let file := A ++ k.sk p oid idx ++ T
    ∃ o s, f.sign P (k.sk p oid idx) (junk (p.sig_bytes + m.length)) 0 m = some o ∧ o.ret = 0 ∧
      IoReach mayFlush (o.sk.drop 4) o.sm (ioStart file (A.length + 4)) s ∧ s.out = o.sm ∧ s.keyFile = file ∧
      ∀ m', ∃ r, uiSign P f junk (some s.keyFile) (some m') = some r ∧ r.exit = 0 ∧
        r.stdout.drop p.sig_bytes = m' ∧ r.stdout.take p.index_bytes = s.out.take p.index_bytes ∧
        s.out.take p.index_bytes = Rfc.toByte idx p.index_bytes := by
  intro A file
  obtain ⟨g, hskb, ho, H, hH⟩ := Family.facts (P := P) hp
  have hfit := g.idx_fits
  have hidx' : idx < 256 ^ p.index_bytes := by omega
  have hsgl := Key.sk_length hk hskb oid idx
  have hstk := Key.sk_take k p oid idx
  have index : ∀ m o, f.sign P (k.sk p oid idx) (junk (p.sig_bytes + m.length)) 0 m = some o →
      o.ret = 0 ∧ o.sm.take p.index_bytes = Rfc.toByte idx p.index_bytes := by
    intro m o h
    have hc := sign_call hp hH k hk idx hidx' (junk (p.sig_bytes + m.length)) 0 m (by rw [hj])
    rw [h] at hc
    have hc := Option.some.inj hc
    rw [hc]
    constructor
    · simp only; rw [if_pos (by omega)]
    · simp only
      rw [if_pos hidx, List.append_assoc, Rfc.Suite.sign]
      simp only [List.append_assoc]
      exact List.take_left' (toByte_length _ _)
  obtain ⟨o, e1, e2, e3, e4, e5, e6⟩ := C41_updates_in_place (P := P) hpp hp junk hj pkb (k.sk p oid idx) T m hpk hsgl hstk
  have hi := index m o e1
  refine ⟨o, { ioStart file (A.length + 4) with keyPend := o.sk.drop 4, out := o.sm, outPend := [], todo := [.closeKey, .exit] },
    e1, hi.1, ?_, rfl, rfl, ?_⟩
  · have s1 := IoReach.step (mayFlush := mayFlush) (newKey := o.sk.drop 4) (sm := o.sm) .refl
      (IoStep.writeKey (ioStart file (A.length + 4)) [.writeOut, .closeKey, .exit] rfl)
    have s2 := IoReach.step s1 (IoStep.writeOut _ [.closeKey, .exit] rfl)
    have s3 := IoReach.step s2 (IoStep.flushOut _ o.sm.length (by
        rw [e5]; have := g.sig_eq; have := g.n_pos; omega) (by simp [ioStart])
      (Or.inl (by simpa [ioStart, e5] using hflush)))
    convert s3 using 1
    simp [ioStart]
  · intro m'
    obtain ⟨o', f1, f2, f3, f4, f5, f6⟩ := C41_updates_in_place (P := P) hpp hp junk hj pkb (k.sk p oid idx) T m' hpk hsgl hstk
    have hi' := index m' o' f1
    exact ⟨_, f2, rfl, f6, by simp only [hi.2, hi'.2], hi.2⟩

/-- **C42, true part.**  If the C library holds back at least `sig_bytes + mlen` bytes of a stream until it is closed,
then in every state in which any byte of the output has left the process, the key file is already the complete updated
one: `fclose(keypair_file)` comes before the flush of stdout at exit. -/
theorem C42_small_output_partial (hp : f.parse oid = some p) (junk : Nat → Bytes) (hj : Fresh junk) (A T m sk : Bytes)
    (hsk : sk.length = 4 + p.sk_bytes) (hoid : sk.take 4 = Rfc.toByte oid 4) (mayFlush : Nat → Prop)
    (hno : ∀ n ≤ p.sig_bytes + m.length, ¬ mayFlush n) :
    ∃ o, f.sign P sk (junk (p.sig_bytes + m.length)) 0 m = some o ∧
      ∀ s, IoReach mayFlush (o.sk.drop 4) o.sm (ioStart (A ++ sk ++ T) (A.length + 4)) s →
        s.out ≠ [] → s.keyFile = A ++ o.sk ++ T := by
  obtain ⟨o, e1, e3, e4, e5⟩ : ∃ o, f.sign P sk (junk (p.sig_bytes + m.length)) 0 m = some o ∧ o.sk.length = sk.length ∧
      o.sk.take 4 = sk.take 4 ∧ o.sm.length = p.sig_bytes + m.length := by
    obtain ⟨g, _, _, _⟩ := Family.facts (P := P) hp
    obtain ⟨o, h1, _, h2, h3, h4, _⟩ := C41_updates_in_place (P := P) hp hp junk hj (List.replicate p.pk_bytes 0) sk [] m
      (by simp) hsk hoid
    exact ⟨o, h1, h2, h3, h4⟩
  refine ⟨o, e1, ?_⟩
  intro s hr hout
  rw [ioStart_file, show A.length + 4 = (A ++ sk.take 4).length by simp; omega] at hr
  have hl : (sk.drop 4).length = (o.sk.drop 4).length := by simp [e3]
  obtain ⟨j, hj', hf, hpos, hc⟩ := ioInv_reach hl hr
  have ht := ioInv_out hl (by rw [e5]; exact hno) hr
  have hjl : j = (o.sk.drop 4).length := by
    rcases ht with h | h | h
    · rcases hc with ⟨h1, _⟩ | ⟨h1, _⟩ | ⟨h1, _⟩ | ⟨h1, h2, _⟩ | ⟨h1, _⟩ <;> rw [h] at h1 <;> first | exact h2 | cases h1
    · rcases hc with ⟨h1, _⟩ | ⟨h1, _⟩ | ⟨h1, _⟩ | ⟨h1, _⟩ | ⟨h1, h2, _⟩ <;> rw [h] at h1 <;> first | exact h2 | cases h1
    · exact absurd h hout
  rw [hf, keyFileAt, hjl, List.take_length, ← hl, List.drop_length, List.append_nil, ← e4, List.append_assoc A,
    List.take_append_drop]

/-- **C42.**  Whatever the buffering, a run that ends normally leaves the updated key and has written the whole signed
message (the small-step runs end where `uiSign` says). -/
theorem C42_normal_exit (mayFlush : Nat → Prop) (A T sk newSk sm : Bytes) (h4 : 4 ≤ sk.length)
    (hl : newSk.length = sk.length) (ht : newSk.take 4 = sk.take 4) (s : IoState)
    (hr : IoReach mayFlush (newSk.drop 4) sm (ioStart (A ++ sk ++ T) (A.length + 4)) s) (hend : s.todo = []) :
    s.keyFile = A ++ newSk ++ T ∧ s.out = sm := by
  rw [ioStart_file, show A.length + 4 = (A ++ sk.take 4).length by simp; omega] at hr
  have hl' : (sk.drop 4).length = (newSk.drop 4).length := by simp [hl]
  obtain ⟨j, hj, hf, hpos, hc⟩ := ioInv_reach hl' hr
  rcases hc with ⟨h1, _⟩ | ⟨h1, _⟩ | ⟨h1, _⟩ | ⟨h1, _⟩ | ⟨h1, h2, h3, h4', h5⟩ <;>
    first | (rw [hend] at h1; cases h1; done) | skip
  refine ⟨?_, h4'⟩
  rw [hf, keyFileAt, h2, List.take_length, ← hl', List.drop_length, List.append_nil, ← ht, List.append_assoc A,
    List.take_append_drop]

/-! ### The hypotheses can be met: XMSS-SHA2_10_256, a deleted and a usable key -/

theorem fresh_zero : Fresh (fun k => List.replicate k 0) := fun k => by simp

example (P : Prims) : ∃ p, Family.xmss.parse 1 = some p ∧ ∃ o r,
    Family.xmss.sign P ((Key.zero p).sk p 1 1024) (List.replicate (p.sig_bytes + 1) 0) 0 [7] = some o ∧ o.ret = -2 ∧
    uiSign P .xmss (fun k => List.replicate k 0)
      (some (Rfc.toByte 1 4 ++ List.replicate p.pk_bytes 5 ++ (Key.zero p).sk p 1 1024 ++ [])) (some [7]) = some r ∧
    r.exit = 0 ∧ r.stdout = List.replicate p.sig_bytes 0 ++ [7] := by
  obtain ⟨p, hp, h1, h2⟩ : ∃ p, Family.xmss.parse 1 = some p ∧ 2 ^ p.full_height ≤ 1024 ∧ 1024 < 256 ^ p.index_bytes :=
    ⟨_, rfl, by decide +kernel, by decide +kernel⟩
  refine ⟨p, hp, ?_⟩
  obtain ⟨o, r, a, b, c, d, e⟩ := C43_fails (P := P) hp hp (fun k => List.replicate k 0) fresh_zero (List.replicate p.pk_bytes 5)
    [] [7] (by simp) (Key.zero p) (Key.zero_valid p) 1024 h1 h2
  exact ⟨o, r, a, b, c, d, by rw [e]; simp⟩

/-- A fully buffered library with 4096-byte buffers and a 4096-byte message: C42 fails; with a 100-byte message the
signed message of XMSS-SHA2_10_256 (2500 + 100 bytes) fits the buffer and C42 holds. -/
example : ∃ p, Family.xmss.parse 1 = some p ∧ (fun n => 4096 ≤ n) (p.sig_bytes + 4096) ∧
    ∀ n ≤ p.sig_bytes + 100, ¬ (fun n => 4096 ≤ n) n := by
  refine ⟨_, rfl, ?_, ?_⟩
  · show 4096 ≤ _; decide +kernel
  · intro n hn
    have : n ≤ 2500 + 100 := hn
    show ¬ 4096 ≤ n
    omega

end Xmss
