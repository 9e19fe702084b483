import Verif.Proof.LowObs
import Verif.Props.Open
/-
C83: the simple implementation on explicit memory, with pointers into it and C integers.
-/
namespace Xmss.Low

variable {P : Prims} {f : Family} {oid : Nat} {p : Params} {H : Bytes → Bytes}

/-! ### OID fields -/

theorem four {b : Bytes} (h : b.length = 4) : ∃ b0 b1 b2 b3, b = [b0, b1, b2, b3] := by
  match b, h with
  | [b0, b1, b2, b3], _ => exact ⟨_, _, _, _, rfl⟩

theorem oidRead_holds {m : Mem} {key : Ptr} {b : Bytes} (h : Holds m key b) (hb : b.length = 4)
    (ht : (b.headD 0).toNat < 128) : oidReadLoop m key oidLen 0 0 = some (Rfc.toNat b) := by
  have e := readOid_eq b [] hb ht
  obtain ⟨b0, b1, b2, b3, rfl⟩ := four hb
  rw [oidReadLoop_of (h.load rfl) ht, ← e]
  simp only [List.headD_cons] at ht
  rw [readOid, List.append_nil]
  have hr : rd [b0, b1, b2, b3] 0 4 = some [b0, b1, b2, b3] := rfl
  rw [hr]
  simp only [Option.bind_eq_bind, Option.bind_some]
  rw [if_neg (by omega)]

theorem toByte4_head (h : oid < 2 ^ 31) : ((Rfc.toByte oid 4).headD 0).toNat < 128 := by
  have e : (Rfc.toByte oid 4).headD 0 = UInt8.ofNat (oid / 256 ^ 3) := rfl
  rw [e]
  simp only [UInt8.toNat_ofNat']
  omega

theorem oidRead_key {m : Mem} {key : Ptr} {rest : Bytes} (h : Holds m key (Rfc.toByte oid 4 ++ rest)) (ho : oid < 2 ^ 31) :
    oidReadLoop m key oidLen 0 0 = some oid := by
  rw [oidRead_holds h.left (toByte_length _ _) (toByte4_head ho), toNat_toByte, Nat.mod_eq_of_lt (by omega)]

/-! ### Key generation -/

theorem store_pair {m m1 m2 m3 m4 : Mem} {q r : Ptr} {a b x y : Bytes} (h1 : store m q a = some m1) (h2 : store m1 r b = some m2)
    (h3 : store m2 (q + a.length) x = some m3) (h4 : store m3 (r + b.length) y = some m4)
    (d : Disj q (a.length + x.length) r (b.length + y.length)) :
    ∃ m5, store m q (a ++ x) = some m5 ∧ store m5 r (b ++ y) = some m4 := by
  have c := store_comm (m := m1) (q := r) (r := q + a.length) (x := b) (y := x)
    ((d.sub_left a.length x.length (Nat.le_refl _)).mono (Nat.le_refl _) (by omega)).symm
  rw [h2, Option.bind_some, h3] at c
  obtain ⟨m5, e1, e2⟩ := Option.bind_eq_some_iff.mp c.symm
  refine ⟨m5, ?_, ?_⟩
  · rw [← store_append, h1, Option.bind_some, e1]
  · rw [← store_append, e2, Option.bind_some, h4]

/-- **C83 (key generation).**  Two separate buffers of the announced sizes, initialised or not, anywhere in memory:
keypair is defined behaviour, returns 0, leaves the two keys of `C30_key_layout` in the buffers and touches no other
byte of the caller. -/
theorem C83_keypair (hp : f.parse oid = some p) (hH : Xmss.coreHash P p.func p.n = some H) (m : Mem) (pk sk : Ptr)
    (hpk : Room m pk (4 + p.pk_bytes)) (hsk : Room m sk (4 + p.sk_bytes))
    (hd : Apart pk (4 + p.pk_bytes) sk (4 + p.sk_bytes)) (rnd : Params → Bytes) (skSeed skPrf pubSeed : Bytes)
    (hs : rnd p = skSeed ++ skPrf ++ pubSeed) (h1 : skSeed.length = p.n) (h2 : skPrf.length = p.n)
    (h3 : pubSeed.length = p.n) :
    ∃ (k : Key) (m' : Mem), k.skSeed = skSeed ∧ k.skPrf = skPrf ∧ k.pubSeed = pubSeed ∧ k.Honest (suiteOf p H) ∧ k.Valid p ∧
      apiKeypair P f.parse m pk sk oid rnd = some (0, m') ∧ Holds m' pk (k.pk oid) ∧ Holds m' sk (k.sk p oid 0) ∧
      OnlyIn m m' [(pk, 4 + p.pk_bytes), (sk, 4 + p.sk_bytes)] := by
  obtain ⟨g, hskb, _, _⟩ := Family.facts (P := P) hp
  have hHl := Family.hash_length hp hH
  have hroot : ((suiteOf p H).root skSeed pubSeed).length = p.n := treeRoot_length g hHl _ _ _ _
  have hpkb := g.pk_eq
  rw [hskb] at hsk
  rw [hskb] at hd
  rw [hpkb] at hpk hd
  have hvp : Valid m pk (4 + 2 * p.n) := hpk
  have hvs : Valid m sk (4 + (p.index_bytes + 4 * p.n)) := hsk
  have hD : Disj pk (4 + 2 * p.n) sk (4 + (p.index_bytes + 4 * p.n)) := hd
  have vp4 : Valid m (pk + 0) 4 := hvp.sub 0 4 (by omega)
  have vs4 : Valid m (sk + 0) 4 := hvs.sub 0 4 (by omega)
  obtain ⟨a1, a2, e1, e2, e3⟩ := oidWriteLoop_of (oid := oid) (pk := pk) (sk := sk) vp4 vs4 (hD.mono (by omega) (by omega))
  have o4 : (oidBytes oid).length = 4 := by rw [oidBytes_eq, toByte_length]
  obtain ⟨b1, b2, f1, f2, f3⟩ := coreKeypair_of hH hHl g (m := a2) (pk := pk + 4) (sk := sk + 4) h1 h2 h3
    (((hvp.sub 4 (2 * p.n) (by omega)).after e1).after e2) (((hvs.sub 4 _ (by omega)).after e1).after e2)
    ((hD.sub_left 4 (2 * p.n) (by omega)).sub 4 _ (by omega))
  have lsk : (List.replicate p.index_bytes (0 : UInt8) ++ skSeed ++ skPrf ++ (suiteOf p H).root skSeed pubSeed ++ pubSeed).length =
      p.index_bytes + 4 * p.n := by simp only [List.length_append, List.length_replicate, h1, h2, h3, hroot]; omega
  have lpk : ((suiteOf p H).root skSeed pubSeed ++ pubSeed).length = 2 * p.n := by
    simp only [List.length_append, h3, hroot]; omega
  obtain ⟨m5, g1, g2⟩ := store_pair e1 e2 (by rw [o4]; exact f1) (by rw [o4]; exact f2) (by rw [o4, lpk, lsk]; exact hD)
  refine ⟨⟨skSeed, skPrf, (suiteOf p H).root skSeed pubSeed, pubSeed⟩, b2, rfl, rfl, rfl, rfl, ⟨h1, h2, hroot, h3⟩, ?_, ?_, ?_, ?_⟩
  · rw [apiKeypair, hp]
    simp only [Option.bind_eq_bind]
    rw [e3, Option.bind_some, hs]
    have : oidLen = 4 := rfl
    rw [this, f3, Option.bind_some]
  · rw [Key.pk, ← oidBytes_eq]
    exact store_holds_disj g2 (store_holds g1) (by
      rw [List.length_append, List.length_append (as := oidBytes oid), o4, lpk, lsk]; exact hD)
  · rw [Key.sk, ← oidBytes_eq, toByte_zero]
    exact store_holds g2
  · have r1 := store_onlyIn g1
    have r2 := store_onlyIn g2
    rw [List.length_append, o4, lpk] at r1
    rw [List.length_append, o4, lsk] at r2
    rw [hskb, hpkb]
    refine r1.trans r2 ?_ ?_
    · intro x i h; rw [within_cons]; exact Or.inl (within_one.mp h)
    · intro x i h; rw [within_cons]; exact Or.inr h

/-- **C83 (key generation, unknown OID).**  -1, and memory is not touched, whatever the pointers. -/
theorem C83_keypair_reject (hp : f.parse oid = none) (m : Mem) (pk sk : Ptr) (rnd : Params → Bytes) :
    apiKeypair P f.parse m pk sk oid rnd = some (-1, m) := by
  rw [apiKeypair, hp]

/-! ### Signing -/

/-- **C83 (signing).**  A secret key anywhere in memory, an output buffer of `sig_bytes + mlen` bytes that does not
overlap it, initialised or not, and a message that does not overlap the place its copy goes to (it may lie in the first
`sig_bytes` bytes of the output buffer, or in the key): sign is defined behaviour; the return value, `*smlen`, the key
bytes and the output are those of `sign_call`, and no other byte of the caller changes. -/
theorem C83_sign (hp : f.parse oid = some p) (hH : Xmss.coreHash P p.func p.n = some H) (k : Key) (hk : k.Valid p)
    (idx : Nat) (hidx : idx < 256 ^ p.index_bytes) (m : Mem) (sk sm msg : Ptr) (l0 : Nat) (M : Bytes)
    (hsk : Holds m sk (k.sk p oid idx)) (hsm : Room m sm (p.sig_bytes + M.length)) (hM : Holds m msg M)
    (hd : Apart sk (4 + p.sk_bytes) sm (p.sig_bytes + M.length))
    (hdm : Apart msg M.length (sm + p.sig_bytes) M.length) (hlen : p.sig_bytes + M.length < 2 ^ 64) :
    ∃ m', apiSign P f.parse m sk sm l0 msg M.length =
        some (if idx < 2 ^ p.full_height then 0 else -2, p.sig_bytes + M.length, m') ∧
      Holds m' sk ((nextKey p idx k).sk p oid (nextIdx p idx)) ∧
      Holds m' (sm + p.sig_bytes) M ∧
      (idx < 2 ^ p.full_height - 1 →
        Holds m' sm ((suiteOf p H).sign k.skSeed k.skPrf k.root k.pubSeed idx M) ∧
        OnlyIn m m' [(sk + 4, p.index_bytes), (sm, p.sig_bytes + M.length)]) ∧
      (idx = 2 ^ p.full_height - 1 →
        Holds m' sm (List.replicate p.index_bytes 0xFF ++ ((suiteOf p H).sign (List.replicate p.n 0) (List.replicate p.n 0)
          (List.replicate p.n 0) (List.replicate p.n 0) idx M).drop p.index_bytes) ∧
        OnlyIn m m' [(sk + 4, p.sk_bytes), (sm, p.sig_bytes + M.length)]) ∧
      (2 ^ p.full_height ≤ idx → OnlyIn m m' [(sk + 4, p.sk_bytes), (sm + p.sig_bytes, M.length)]) := by
  obtain ⟨g, hskb, ho, _⟩ := Family.facts (P := P) hp
  have hHl := Family.hash_length hp hH
  have hoid : oidReadLoop m sk oidLen 0 0 = some oid := oidRead_key hsk (by omega)
  have hpos : 0 < 2 ^ p.full_height := Nat.two_pow_pos _
  rw [hskb] at hd ⊢
  have l4 : (Rfc.toByte oid 4).length = 4 := toByte_length _ _
  have hI : (Rfc.toByte idx p.index_bytes).length = p.index_bytes := toByte_length _ _
  have hskr := hsk.right
  rw [l4] at hskr
  have hload := hskr.load (n := p.index_bytes + 4 * p.n) (by
    simp only [List.length_append, hI, hk.skSeed, hk.skPrf, hk.root, hk.pubSeed]; omega)
  have hD : Disj (sk + 4) (p.index_bytes + 4 * p.n) sm (p.sig_bytes + M.length) :=
    Disj.sub_left (b := p.sig_bytes + M.length) (a := 4 + (p.index_bytes + 4 * p.n)) hd 4 _ (by omega)
  have hI' : Rfc.toNat (Rfc.toByte idx p.index_bytes) = idx := by rw [toNat_toByte, Nat.mod_eq_of_lt hidx]
  have hcs := coreSign_of (P := P) hH hHl g hskb (m := m) (sk := sk + 4) (sm := sm) (msg := msg) (M := M) hload hI hk.skSeed hk.skPrf
    hk.root hk.pubSeed hsm (hM.load rfl) hD hdm hlen
  rw [hI'] at hcs
  have hcall : ∀ r, coreSign P p m (sk + 4) sm msg M.length = some r → apiSign P f.parse m sk sm l0 msg M.length = some r := by
    intro r hr
    rw [apiSign]
    simp only [Option.bind_eq_bind]
    rw [hoid, Option.bind_some]
    simp only [hp]
    exact hr
  have sl : ∀ a b c d : Bytes, ∀ i, ((suiteOf p H).sign a b c d i M).length = p.sig_bytes := fun a b c d i => sign_length g hHl _ _ _ _ _ _
  by_cases c1 : idx < 2 ^ p.full_height - 1
  · obtain ⟨mk, m', e1, e2, e3⟩ := hcs.1 c1
    have hki : (Rfc.toByte (idx + 1) p.index_bytes).length = p.index_bytes := toByte_length _ _
    refine ⟨m', ?_, ?_, ?_, ?_, fun h => by omega, fun h => by omega⟩
    · rw [hcall _ e3, if_pos (by omega)]
    · rw [nextKey, if_pos c1, nextIdx, if_pos c1, Key.sk]
      have hrest : Holds m (sk + 4 + p.index_bytes) (k.skSeed ++ k.skPrf ++ k.root ++ k.pubSeed) := by
        have := Holds.right (x := Rfc.toByte idx p.index_bytes) (y := k.skSeed ++ k.skPrf ++ k.root ++ k.pubSeed)
          (by simpa [List.append_assoc] using hskr)
        rwa [hI] at this
      have hlr : (k.skSeed ++ k.skPrf ++ k.root ++ k.pubSeed).length = 4 * p.n := by
        simp only [List.length_append, hk.skSeed, hk.skPrf, hk.root, hk.pubSeed]; omega
      have hkey : Holds mk (sk + 4) (Rfc.toByte (idx + 1) p.index_bytes ++ (k.skSeed ++ k.skPrf ++ k.root ++ k.pubSeed)) := by
        refine (store_holds e1).append (store_holds_disj e1 ?_ ?_)
        · rw [hki]; exact hrest
        · rw [hki, hlr]; right; right; exact Nat.le_refl _
      have hoidk : Holds mk sk (Rfc.toByte oid 4) := by
        refine store_holds_disj e1 hsk.left ?_
        rw [l4]; right; left; exact Nat.le_refl _
      have : Holds mk sk (Rfc.toByte oid 4 ++ (Rfc.toByte (idx + 1) p.index_bytes ++ (k.skSeed ++ k.skPrf ++ k.root ++ k.pubSeed))) := by
        refine hoidk.append ?_
        rw [l4]; exact hkey
      have := store_holds_disj e2 this (by
        simp only [List.length_append, l4, hki, sl]
        have : p.n + p.n + p.n + p.n = 4 * p.n := by omega
        rw [hk.skSeed, hk.skPrf, hk.root, hk.pubSeed, this]; exact hd)
      simpa [List.append_assoc] using this
    · have := (store_holds e2).right
      rwa [sl] at this
    · intro _
      refine ⟨(store_holds e2).left, ?_⟩
      have r1 := store_onlyIn e1
      have r2 := store_onlyIn e2
      rw [hki] at r1
      rw [List.length_append, sl] at r2
      refine r1.trans r2 ?_ ?_
      · intro x i h; rw [within_cons]; exact Or.inl (within_one.mp h)
      · intro x i h; rw [within_cons]; exact Or.inr h
  · by_cases c2 : idx = 2 ^ p.full_height - 1
    · obtain ⟨mk, m', e1, e2, e3⟩ := hcs.2.1 c2 _ rfl
      have hkl : (Rfc.toByte (2 ^ p.full_height) p.index_bytes ++ List.replicate p.n (0 : UInt8) ++ List.replicate p.n 0 ++
          List.replicate p.n 0 ++ List.replicate p.n 0).length = p.index_bytes + 4 * p.n := by
        simp only [List.length_append, toByte_length, List.length_replicate]; omega
      have hsl : (List.replicate p.index_bytes (0xFF : UInt8) ++ ((suiteOf p H).sign (List.replicate p.n 0) (List.replicate p.n 0)
          (List.replicate p.n 0) (List.replicate p.n 0) (2 ^ p.full_height - 1) M).drop p.index_bytes).length = p.sig_bytes := by
        have := g.prefix_fits
        have := g.sig_eq'
        simp only [List.length_append, List.length_replicate, List.length_drop, sl]; omega
      refine ⟨m', ?_, ?_, ?_, fun h => by omega, ?_, fun h => by omega⟩
      · rw [hcall _ e3, if_pos (by omega)]
      · rw [nextKey, if_neg c1, nextIdx, if_neg c1, if_pos c2, Key.sk, toByte_mod]
        have hoidk : Holds mk sk (Rfc.toByte oid 4) := by
          refine store_holds_disj e1 hsk.left ?_
          rw [l4]; right; left; exact Nat.le_refl _
        have h' := hoidk.append (by rw [l4]; exact store_holds e1)
        have := store_holds_disj e2 h' (by
          rw [List.length_append, l4, hkl, List.length_append, hsl]; exact hd)
        exact this
      · have := (store_holds e2).right
        rwa [hsl] at this
      · intro _
        refine ⟨by rw [c2]; exact (store_holds e2).left, ?_⟩
        have r1 := store_onlyIn e1
        have r2 := store_onlyIn e2
        rw [hkl] at r1
        rw [List.length_append, hsl] at r2
        refine r1.trans r2 ?_ ?_
        · intro x i h; rw [within_cons]; exact Or.inl (within_one.mp h)
        · intro x i h; rw [within_cons]; exact Or.inr h
    · obtain ⟨mk, m', e1, e2, e3⟩ := hcs.2.2 (by omega)
      have hkl : (List.replicate p.index_bytes (0xFF : UInt8) ++ List.replicate (4 * p.n) 0).length = p.index_bytes + 4 * p.n := by
        simp only [List.length_append, List.length_replicate]
      refine ⟨m', ?_, ?_, store_holds e2, fun h => absurd h c1, fun h => absurd h c2, ?_⟩
      · rw [hcall _ e3, if_neg (by omega)]
      · rw [nextKey, if_neg c1, nextIdx, if_neg c1, if_neg c2, Key.sk, ← toByte_ff]
        have hoidk : Holds mk sk (Rfc.toByte oid 4) := by
          refine store_holds_disj e1 hsk.left ?_
          rw [l4]; right; left; exact Nat.le_refl _
        have h' := hoidk.append (by rw [l4]; exact store_holds e1)
        have := store_holds_disj e2 h' (by
          rw [List.length_append, l4, hkl]; exact Disj.sub (q := sk) (r := sm) hd _ _ (Nat.le_refl _))
        have e : List.replicate (4 * p.n) (0 : UInt8) = List.replicate p.n 0 ++ List.replicate p.n 0 ++ List.replicate p.n 0 ++
            List.replicate p.n 0 := by
          rw [List.replicate_append_replicate, List.replicate_append_replicate, List.replicate_append_replicate]
          congr 1; omega
        rw [e] at this
        simpa only [Key.zero, List.append_assoc] using this
      · intro _
        have r1 := store_onlyIn e1
        have r2 := store_onlyIn e2
        rw [hkl] at r1
        refine r1.trans r2 ?_ ?_
        · intro x i h; rw [within_cons]; exact Or.inl (within_one.mp h)
        · intro x i h; rw [within_cons]; exact Or.inr h

/-- **C83 (signing and verification, unknown OID).**  -1, nothing is changed and nothing but the OID field of the key is read. -/
theorem C83_reject (m : Mem) (key sm mp : Ptr) (l0 len : Nat) (b : Bytes) (hb : b.length = 4) (ht : (b.headD 0).toNat < 128)
    (hkey : Holds m key b) (hp : f.parse (Rfc.toNat b) = none) :
    apiSign P f.parse m key sm l0 mp len = some (-1, l0, m) ∧ apiOpen P f.parse m mp l0 sm len key = some (-1, l0, m) := by
  constructor
  · rw [apiSign]
    simp only [Option.bind_eq_bind]
    rw [oidRead_holds hkey hb ht, Option.bind_some]
    simp only [hp]
  · rw [apiOpen]
    simp only [Option.bind_eq_bind]
    rw [oidRead_holds hkey hb ht, Option.bind_some]
    simp only [hp]

/-! ### Verification -/

/-- **C83 (verification).**  A public key and a signed message anywhere in memory and an output buffer of `smlen` bytes
that overlaps neither, initialised or not: open is defined behaviour, returns 0, the message length and the message if
RFC 8391 verification accepts and otherwise -1, the length 0 and zeros; no byte of the caller outside of the output
buffer changes. -/
theorem C83_open (hp : f.parse oid = some p) (hH : Xmss.coreHash P p.func p.n = some H) (k : Key)
    (hr : k.root.length = p.n) (hps : k.pubSeed.length = p.n) (m : Mem) (mbuf sm pk : Ptr) (l0 : Nat) (sig M : Bytes)
    (hpk : Holds m pk (k.pk oid)) (hsm : Holds m sm (sig ++ M)) (hsig : sig.length = p.sig_bytes)
    (hm : Room m mbuf (p.sig_bytes + M.length))
    (d1 : Apart sm (p.sig_bytes + M.length) mbuf (p.sig_bytes + M.length))
    (d2 : Apart pk (4 + p.pk_bytes) mbuf (p.sig_bytes + M.length)) (hlen : p.sig_bytes + M.length < 2 ^ 64) :
    ∃ m', OnlyIn m m' [(mbuf, p.sig_bytes + M.length)] ∧
      ((suiteOf p H).verify k.root k.pubSeed M sig →
        apiOpen P f.parse m mbuf l0 sm (p.sig_bytes + M.length) pk = some (0, M.length, m') ∧ Holds m' mbuf M) ∧
      (¬ (suiteOf p H).verify k.root k.pubSeed M sig →
        apiOpen P f.parse m mbuf l0 sm (p.sig_bytes + M.length) pk = some (-1, 0, m') ∧
        Holds m' mbuf (List.replicate M.length 0)) := by
  obtain ⟨g, hskb, ho, _⟩ := Family.facts (P := P) hp
  have hHl := Family.hash_length hp hH
  have hoid : oidReadLoop m pk oidLen 0 0 = some oid := oidRead_key hpk (by omega)
  have l4 : (Rfc.toByte oid 4).length = 4 := toByte_length _ _
  rw [g.pk_eq] at d2
  have hpkr := hpk.right
  rw [l4] at hpkr
  have hv : Valid m mbuf (p.sig_bytes + M.length) := hm
  obtain ⟨C0, C1, hC0, hC1, hX0⟩ := hv.cells2
  obtain ⟨J, X, hJ, _, hX, hf⟩ := coreSignOpen_of hH hHl g (m := m) (mbuf := mbuf) (sm := sm) (pk := pk + 4) (root := k.root)
    (s := k.pubSeed) (sig := sig) (M := M) (hpkr.load (by rw [List.length_append, hr, hps]; omega)) hr hps
    (hsm.load (by rw [List.length_append, hsig])) hsig hC0 hC1 hX0 d1 (Disj.sub_left d2 4 (2 * p.n) (by omega)) hlen
  have hcall : ∀ r, coreSignOpen P p m mbuf sm (p.sig_bytes + M.length) (pk + 4) = some r →
      apiOpen P f.parse m mbuf l0 sm (p.sig_bytes + M.length) pk = some r := by
    intro r hr
    rw [apiOpen]
    simp only [Option.bind_eq_bind]
    rw [hoid, Option.bind_some]
    simp only [hp]
    exact hr
  refine ⟨X, ?_, ?_, ?_⟩
  · have := storeC_onlyIn hX
    have hl : ∀ c : Prop, [Decidable c] → (((if c then M else List.replicate M.length (0 : UInt8)).map some ++ J)).length =
        p.sig_bytes + M.length := by
      intro c _
      split <;> simp [hJ] <;> omega
    rwa [hl] at this
  · intro h
    unfold Rfc.Suite.verify at h
    rw [if_pos h] at hX hf
    exact ⟨hcall _ hf, Holds.of_load (load_storeC (A := []) hX)⟩
  · intro h
    unfold Rfc.Suite.verify at h
    rw [if_neg h] at hX hf
    exact ⟨hcall _ hf, Holds.of_load (load_storeC (A := []) hX)⟩

end Xmss.Low
