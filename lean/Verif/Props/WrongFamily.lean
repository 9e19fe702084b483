import Verif.Props.Binding
import Verif.Props.StrongForgery
/-
C66: the keys of one family of functions given to the functions of the other.
-/
namespace Xmss

variable {P : Prims} {H : Bytes → Bytes} {p q : Params} {f : Family} {oid : Nat}

/-! ### Signing with a buffer that is too short or too long -/

theorem rd_frame {b r : Bytes} {off len : Nat} (e : Bytes) (h : rd b off len = some r) : rd (b ++ e) off len = some r := by
  obtain ⟨h1, h2⟩ := rd_eq_some_iff.mp h
  rw [rd, if_pos (by simp; omega), List.drop_append_of_le_length (by omega), List.take_append_of_le_length (by simp; omega)]
  exact congrArg some h2.symm

theorem wr_frame {b bs r : Bytes} {off : Nat} (e : Bytes) (h : wr b off bs = some r) : wr (b ++ e) off bs = some (r ++ e) := by
  have hl : off + bs.length ≤ b.length := by
    by_contra hc
    rw [wr, if_neg hc] at h; cases h
  rw [wr, if_pos hl] at h
  cases h
  rw [wr, if_pos (by simp; omega), List.take_append_of_le_length (by omega), List.drop_append_of_le_length (by omega)]
  simp

theorem wipeKey_frame {sk r : Bytes} (e : Bytes) (h : wipeKey p sk = some r) : wipeKey p (sk ++ e) = some (r ++ e) := by
  simp only [wipeKey, Option.bind_eq_bind, Option.bind_eq_some_iff] at h
  obtain ⟨a, h1, h2⟩ := h
  simp only [wipeKey, Option.bind_eq_bind, wr_frame e h1, Option.bind_some, wr_frame e h2]

theorem coreSignBody_frame {sk sm : Bytes} {mlen idx : Nat} {o : SignOut} (e : Bytes) (h : coreSignBody H p sk sm mlen idx = some o) :
    coreSignBody H p (sk ++ e) sm mlen idx = some { o with sk := o.sk ++ e } := by
  simp only [coreSignBody, Option.bind_eq_bind, Option.bind_eq_some_iff] at h
  obtain ⟨a1, h1, a2, h2, a3, h3, a4, h4, a5, h5, a6, h6, a7, h7, a8, h8, a9, h9, h10⟩ := h
  simp only [coreSignBody, Option.bind_eq_bind, rd_frame e h1, h2, wr_frame e h3, rd_frame e h4, rd_frame e h5, rd_frame e h6,
    rd_frame e h7, h8, h9, Option.bind_some]
  split at h10
  · cases h10
  · rename_i hc
    rw [if_neg hc]
    simp only [Option.bind_eq_some_iff] at h10
    obtain ⟨b1, g1, b2, g2, g3⟩ := h10
    simp only [g1, g2, Option.bind_some]
    cases g3
    rfl

/-- Bytes behind the key in the buffer play no role. -/
theorem coreSign_frame {sk sm m : Bytes} {o : SignOut} (e : Bytes) (h : coreSign H p sk sm m = some o) :
    coreSign H p (sk ++ e) sm m = some { o with sk := o.sk ++ e } := by
  simp only [coreSign, Option.bind_eq_bind, Option.bind_eq_some_iff] at h
  obtain ⟨a1, h1, a2, h2, a3, h3, h4⟩ := h
  simp only [coreSign, Option.bind_eq_bind, rd_frame e h2, h1, h3, Option.bind_some]
  split at h4
  · cases h4
  · rename_i hc
    rw [if_neg hc]
    obtain ⟨b, g1, g2⟩ := Option.bind_eq_some_iff.mp h4
    have g1' : (if 2 ^ p.full_height - 1 ≤ a3 then wipeKey p (sk ++ e) else some (sk ++ e)) = some (b ++ e) := by
      split at g1
      · rename_i c; rw [if_pos c]; exact wipeKey_frame e g1
      · rename_i c; rw [if_neg c]; cases g1; rfl
    rw [g1', Option.bind_some]
    split at g2
    · rename_i c; rw [if_pos c]; cases g2; rfl
    · rename_i c; rw [if_neg c]; exact coreSignBody_frame e g2

theorem wr_bound {b bs r : Bytes} {off : Nat} (h : wr b off bs = some r) : off + bs.length ≤ b.length := by
  by_contra hc
  rw [wr, if_neg hc] at h; cases h

/-- A key that is too short is read behind its end. -/
theorem coreSign_short (hskb : p.sk_bytes = p.index_bytes + 4 * p.n) {sk sm m : Bytes} (hs : sk.length < p.sk_bytes) :
    coreSign H p sk sm m = none := by
  cases hr : coreSign H p sk sm m with
  | none => rfl
  | some o =>
    exfalso
    simp only [coreSign, Option.bind_eq_bind, Option.bind_eq_some_iff] at hr
    obtain ⟨a1, h1, a2, h2, a3, h3, h4⟩ := hr
    split at h4
    · cases h4
    · obtain ⟨b, g1, g2⟩ := Option.bind_eq_some_iff.mp h4
      split at g1
      · simp only [wipeKey, Option.bind_eq_bind, Option.bind_eq_some_iff] at g1
        obtain ⟨c, e1, e2⟩ := g1
        have := wr_bound e2
        rw [wr_length e1, List.length_replicate] at this
        omega
      · rename_i c
        cases g1
        rw [if_neg (by omega)] at g2
        simp only [coreSignBody, Option.bind_eq_bind, Option.bind_eq_some_iff] at g2
        obtain ⟨a1, h1, a2, h2, a3, h3, a4, h4, a5, h5, a6, h6, a7, h7, _⟩ := g2
        have := (rd_eq_some_iff.mp h7).1
        rw [wr_length h3] at this
        omega

theorem sign_frame (hp : f.parse oid = some p) (ho : oid < 2 ^ 31) {b sm m : Bytes} {l0 : Nat} {o : SignOut} (e : Bytes)
    (h : f.sign P (Rfc.toByte oid 4 ++ b) sm l0 m = some o) :
    f.sign P (Rfc.toByte oid 4 ++ b ++ e) sm l0 m = some { o with sk := o.sk ++ e } := by
  have t1 : ∀ x : Bytes, (Rfc.toByte oid 4 ++ x).drop oidLen = x := fun x => List.drop_left' (toByte_length _ _)
  have t2 : ∀ x : Bytes, (Rfc.toByte oid 4 ++ x).take oidLen = Rfc.toByte oid 4 := fun x =>
    List.take_left' (toByte_length _ _)
  rw [Family.sign_eq, apiSign, readOid_toByte ho] at h
  rw [Family.sign_eq, apiSign, List.append_assoc, readOid_toByte ho]
  simp only [Option.bind_eq_bind, Option.bind_some, hp, t1, t2, Option.bind_eq_some_iff] at h ⊢
  obtain ⟨H, hH, r, hr, he⟩ := h
  refine ⟨H, hH, _, coreSign_frame e hr, ?_⟩
  cases he
  simp

/-! ### C66 -/

/-- The other family. -/
def Family.other : Family → Family | .xmss => .xmssmt | .xmssmt => .xmss

/-- **C66 (what holds).**  The `xmss_*` functions refuse the keys of `xmssmt_keypair` with an OID above 21, and nothing is
changed.  (The other way round there is no such OID: see `C66_shared_oids`.) -/
theorem C66_refused_partial (hp : parseXmssmt oid = some p) (h21 : 21 < oid) (k : Key) (idx : Nat) (sm : Bytes) (l0 : Nat) (m : Bytes) :
    xmssSign P (k.sk p oid idx) sm l0 m = some { ret := -1, sk := k.sk p oid idx, sm := sm, smlen := l0 } ∧
    ∀ out smlen, xmssSignOpen P out l0 sm smlen (k.pk oid) = some { ret := -1, m := out, mlen := l0 } := by
  have ho : oid < 2 ^ 31 := by
    obtain ⟨g, hskb, ho, _⟩ := Family.facts (P := P) (f := .xmssmt) hp
    omega
  have hn : parseXmss oid = none := by
    cases h : parseXmss oid with
    | none => rfl
    | some q =>
      have := (C02_xmss_oids slowSkBytes oid).mp (by rw [show xmssParseOid slowSkBytes oid = some q from h]; rfl)
      omega
  constructor
  · rw [xmssSign, apiSign, Key.sk, readOid_toByte ho]
    simp only [Option.bind_eq_bind, Option.bind_some, hn]
  · intro out smlen
    rw [xmssSignOpen, apiOpen, Key.pk, readOid_toByte ho]
    simp only [Option.bind_eq_bind, Option.bind_some, hn]

/-- **C66 (does not hold), the OIDs.**  Every OID of an XMSS parameter set is also the OID of an XMSS^MT parameter set: no
`xmssmt_*` function refuses an XMSS key.  The keys of the 21 shared OIDs are read with the parameters of the other family. -/
theorem C66_shared_oids : (∀ oid, (parseXmss oid).isSome → (parseXmssmt oid).isSome) ∧
    (∀ oid, (parseXmss oid).isSome ∧ (parseXmssmt oid).isSome ↔ 1 ≤ oid ∧ oid ≤ 21) := by
  have a := C02_xmss_oids slowSkBytes
  have b := C02_xmssmt_oids slowSkBytes
  constructor
  · intro oid h
    refine (b oid).mpr ?_
    have := (a oid).mp h
    omega
  · intro oid
    constructor
    · rintro ⟨h, _⟩; exact (a oid).mp h
    · intro h; exact ⟨(a oid).mpr h, (b oid).mpr (by omega)⟩

/-- **C66 (does not hold), signing.**  What the sign function of one family does with a key of the other under a shared OID (`p`
the parameters of the key, `q` those the function takes): never -1.  If a `q` key is longer, the call reads or writes behind the
end of the key (undefined).  Otherwise the first `q.index_bytes` bytes are taken as the index: below `2^h - 1` the call returns 0
and these bytes, as a number, are incremented; from `2^h` on it returns -2 and the bytes of a `q` key are deleted. -/
theorem C66_wrong_family (hp : f.parse oid = some p) (hq : f.other.parse oid = some q) (k : Key) (hk : k.Valid p)
    (idx : Nat) (sm : Bytes) (l0 : Nat) (m : Bytes) :
    (p.sk_bytes < q.sk_bytes → f.other.sign P (k.sk p oid idx) sm l0 m = none) ∧
    (q.sk_bytes ≤ p.sk_bytes → q.sig_bytes + m.length ≤ sm.length →
      ∃ o, f.other.sign P (k.sk p oid idx) sm l0 m = some o ∧ (o.ret = 0 ∨ o.ret = -2) ∧
        o.smlen = q.sig_bytes + m.length ∧
        (Rfc.toNat (((k.sk p oid idx).drop 4).take q.index_bytes) < 2 ^ q.full_height - 1 →
          o.ret = 0 ∧ o.sk = Rfc.toByte oid 4 ++
            Rfc.toByte (Rfc.toNat (((k.sk p oid idx).drop 4).take q.index_bytes) + 1) q.index_bytes ++
            (k.sk p oid idx).drop (4 + q.index_bytes)) ∧
        (2 ^ q.full_height ≤ Rfc.toNat (((k.sk p oid idx).drop 4).take q.index_bytes) →
          o.ret = -2 ∧ o.sk = Rfc.toByte oid 4 ++ List.replicate q.index_bytes 0xFF ++ List.replicate (4 * q.n) 0 ++
            (k.sk p oid idx).drop (4 + q.sk_bytes))) := by
  obtain ⟨gp, hskp, ho, _⟩ := Family.facts (P := P) hp
  obtain ⟨gq, hskq, _, H, hH⟩ := Family.facts (P := P) hq
  have hlen : (k.sk p oid idx).length = 4 + p.sk_bytes := by
    simp only [Key.sk, List.length_append, toByte_length, hk.skSeed, hk.skPrf, hk.root, hk.pubSeed, hskp]; omega
  obtain ⟨b, hb⟩ : ∃ b, k.sk p oid idx = Rfc.toByte oid 4 ++ b := ⟨_, rfl⟩
  rw [hb, List.length_append, toByte_length] at hlen
  rw [hb]
  have t1 : ∀ x : Bytes, (Rfc.toByte oid 4 ++ x).drop oidLen = x := fun x => List.drop_left' (toByte_length _ _)
  have t4 : ∀ x : Bytes, (Rfc.toByte oid 4 ++ x).drop 4 = x := t1
  have t3 : ∀ (x : Bytes) (n : Nat), (Rfc.toByte oid 4 ++ x).drop (4 + n) = x.drop n := fun x n => by
    rw [← List.drop_drop, List.drop_left' (toByte_length _ _)]
  constructor
  · intro hs
    rw [Family.sign_eq, apiSign, readOid_toByte (by omega)]
    simp only [Option.bind_eq_bind, Option.bind_some, hq, hH, t1]
    rw [coreSign_short hskq (by omega)]
    rfl
  · intro hs hsm
    have hpl : (b.take q.sk_bytes).length = q.sk_bytes := by rw [List.length_take]; omega
    obtain ⟨k', hk', i', hi', e'⟩ := Key.sk_surj hskq (Rfc.toByte oid 4 ++ b.take q.sk_bytes)
      (by rw [List.length_append, toByte_length, hpl]) (List.take_left' (toByte_length _ _))
    have hc := sign_call (P := P) hq hH k' hk' i' hi' sm l0 m hsm
    rw [← e'] at hc
    have hc := sign_frame hq (by omega) (b.drop q.sk_bytes) hc
    rw [List.append_assoc, List.take_append_drop] at hc
    have eb : b.take q.sk_bytes = Rfc.toByte i' q.index_bytes ++ (k'.skSeed ++ k'.skPrf ++ k'.root ++ k'.pubSeed) := by
      rw [Key.sk] at e'
      have := List.append_cancel_left e'
      rw [this]; simp
    have ei : Rfc.toNat (b.take q.index_bytes) = i' := by
      have h1 : b.take q.index_bytes = Rfc.toByte i' q.index_bytes := by
        have h2 : b.take q.index_bytes = (b.take q.sk_bytes).take q.index_bytes := by
          rw [List.take_take]; congr 1; omega
        rw [h2, eb, List.take_left' (toByte_length _ _)]
      rw [h1, toNat_toByte, Nat.mod_eq_of_lt hi']
    have ed : b.drop q.index_bytes = (k'.skSeed ++ k'.skPrf ++ k'.root ++ k'.pubSeed) ++ b.drop q.sk_bytes := by
      have : b = b.take q.sk_bytes ++ b.drop q.sk_bytes := (List.take_append_drop _ _).symm
      conv_lhs => rw [this, eb]
      rw [List.append_assoc, List.drop_left' (toByte_length _ _)]
    have hpos : 0 < 2 ^ q.full_height := by positivity
    refine ⟨_, hc, ?_, rfl, ?_, ?_⟩
    · dsimp only
      split
      · exact Or.inl rfl
      · exact Or.inr rfl
    · intro h
      rw [t4, ei] at h ⊢
      constructor
      · dsimp only; rw [if_pos (by omega)]
      · dsimp only
        rw [t3, nextKey, if_pos h, nextIdx, if_pos h, Key.sk, ed]
        simp
    · intro h
      rw [t4, ei] at h
      constructor
      · dsimp only; rw [if_neg (by omega)]
      · dsimp only
        rw [t3, nextKey, if_neg (by omega), nextIdx, if_neg (by omega), if_neg (by omega), Key.sk, ← toByte_ff, Key.zero]
        have e : List.replicate (4 * q.n) (0 : UInt8) = List.replicate q.n 0 ++ List.replicate q.n 0 ++ List.replicate q.n 0 ++
            List.replicate q.n 0 := by
          rw [List.replicate_append_replicate, List.replicate_append_replicate, List.replicate_append_replicate]
          congr 1; omega
        rw [e]
        simp

/-- Which of the shared OIDs lead to which case of `C66_wrong_family`, for XMSS keys (first list: `xmssmt_sign` runs, second: it
leaves the key buffer) and for XMSS^MT keys (likewise for `xmss_sign`). -/
theorem C66_cases :
    (∀ oid, (∃ p q, parseXmss oid = some p ∧ parseXmssmt oid = some q ∧ q.sk_bytes ≤ p.sk_bytes) ↔
      oid ∈ [1, 2, 4, 5, 6, 10, 17, 18]) ∧
    (∀ oid, (∃ p q, parseXmss oid = some p ∧ parseXmssmt oid = some q ∧ p.sk_bytes < q.sk_bytes) ↔
      oid ∈ [3, 7, 8, 9, 11, 12, 13, 14, 15, 16, 19, 20, 21]) ∧
    (∀ oid, (∃ p q, parseXmssmt oid = some p ∧ parseXmss oid = some q ∧ q.sk_bytes ≤ p.sk_bytes) ↔
      oid ∈ [3, 7, 8, 9, 11, 12, 13, 14, 15, 16, 19, 20, 21]) ∧
    (∀ oid, (∃ p q, parseXmssmt oid = some p ∧ parseXmss oid = some q ∧ p.sk_bytes < q.sk_bytes) ↔
      oid ∈ [1, 2, 4, 5, 6, 10, 17, 18]) := by
  have key : ∀ (a b : Nat → Option Params) (r : Nat → Nat → Bool) (l : List Nat),
      (∀ oid, (a oid).isSome ∧ (b oid).isSome → 1 ≤ oid ∧ oid ≤ 21) →
      (∀ oid ∈ List.range 22, (match a oid, b oid with | some p, some q => r p.sk_bytes q.sk_bytes | _, _ => false) =
        decide (oid ∈ l)) → (∀ oid ∈ l, oid ≤ 21) →
      ∀ oid, (∃ p q, a oid = some p ∧ b oid = some q ∧ r p.sk_bytes q.sk_bytes = true) ↔ oid ∈ l := by
    intro a b r l h1 h2 h3 oid
    constructor
    · rintro ⟨p, q, ha, hb, hr⟩
      have h4 := h1 oid ⟨by rw [ha]; rfl, by rw [hb]; rfl⟩
      have h5 := h2 oid (List.mem_range.mpr (by omega))
      rw [ha, hb] at h5
      simp only [hr] at h5
      exact of_decide_eq_true h5.symm
    · intro hl
      have h5 := h2 oid (List.mem_range.mpr (by have := h3 oid hl; omega))
      rw [decide_eq_true hl] at h5
      cases ha : a oid with
      | none => rw [ha] at h5; cases h5
      | some p =>
        cases hb : b oid with
        | none => rw [ha, hb] at h5; cases h5
        | some q =>
          rw [ha, hb] at h5
          exact ⟨p, q, rfl, rfl, h5⟩
  have s1 := C66_shared_oids.2
  have s2 : ∀ oid, (parseXmssmt oid).isSome ∧ (parseXmss oid).isSome → 1 ≤ oid ∧ oid ≤ 21 :=
    fun oid h => (s1 oid).mp ⟨h.2, h.1⟩
  have k1 := key parseXmss parseXmssmt (fun a b => decide (b ≤ a)) [1, 2, 4, 5, 6, 10, 17, 18] (fun oid h => (s1 oid).mp h)
    (by decide +kernel) (by decide)
  have k2 := key parseXmss parseXmssmt (fun a b => decide (a < b)) [3, 7, 8, 9, 11, 12, 13, 14, 15, 16, 19, 20, 21]
    (fun oid h => (s1 oid).mp h) (by decide +kernel) (by decide)
  have k3 := key parseXmssmt parseXmss (fun a b => decide (b ≤ a)) [3, 7, 8, 9, 11, 12, 13, 14, 15, 16, 19, 20, 21] s2
    (by decide +kernel) (by decide)
  have k4 := key parseXmssmt parseXmss (fun a b => decide (a < b)) [1, 2, 4, 5, 6, 10, 17, 18] s2 (by decide +kernel) (by decide)
  simp only [decide_eq_true_eq] at k1 k2 k3 k4
  exact ⟨k1, k2, k3, k4⟩

/-- The keys of which shared OIDs have the same hash function and `n` in both families. -/
theorem C66_same_hash (hp : parseXmss oid = some p) (hq : parseXmssmt oid = some q) :
    (p.func = q.func ∧ p.n = q.n ↔ oid ≤ 3) ∧ (oid ≤ 3 → p.padding_len = q.padding_len) := by
  have h := (C66_shared_oids.2 oid).mp ⟨by rw [hp]; rfl, by rw [hq]; rfl⟩
  have key : ∀ o ∈ List.range 22, ∀ p ∈ parseXmss o, ∀ q ∈ parseXmssmt o,
      (p.func = q.func ∧ p.n = q.n ↔ o ≤ 3) ∧ (o ≤ 3 → p.padding_len = q.padding_len) := by decide +kernel
  exact key oid (List.mem_range.mpr (by omega)) p (by rw [hp]; rfl) q (by rw [hq]; rfl)

/-- **C66 (what remains), verification.**  Under the public key of an honest key of the one family, with an OID for which both
families use the same hash function, whatever the open function of the other family accepts gives an explicit collision of that
hash function: of the strings hashed for the two top nodes, or of the strings from which the keys of these two hashes are derived.
(In particular that holds for the signatures which the sign function of the other family produces with such a key.) -/
theorem C66_open_collision (hp : f.parse oid = some p) (hq : f.other.parse oid = some q) (ho3 : oid ≤ 3)
    (hH : coreHash P q.func q.n = some H) (k : Key)
    (hk : k.Valid p) (hh : k.Honest (suiteOf p H)) (sig msg m : Bytes) (l0 : Nat) (hs : sig.length = q.sig_bytes)
    (h64 : q.sig_bytes + msg.length < 2 ^ 64) (hm : q.sig_bytes + msg.length ≤ m.length) (r : OpenOut)
    (hr : f.other.signOpen P m l0 (sig ++ msg) (q.sig_bytes + msg.length) (k.pk oid) = some r) (hacc : r.ret = 0) :
    let S := suiteOf q H
    let idx := Rfc.toNat (sig.take q.index_bytes)
    let body := sig.drop (q.index_bytes + q.n)
    let M := S.digest ((sig.drop q.index_bytes).take q.n) k.root idx msg
    let top := q.tree_height - 1
    let leaf := leafOn S idx (q.d - 1)
    let str := fun (adrs : Nat → Bytes) (c : Bytes × Bytes) => Rfc.toByte 1 q.padding_len ++ S.PRF k.pubSeed (adrs 0) ++
      (Rfc.xor c.1 (S.PRF k.pubSeed (adrs 1)) ++ Rfc.xor c.2 (S.PRF k.pubSeed (adrs 2)))
    let prfStr := fun adrs : Nat → Bytes => Rfc.toByte 3 q.padding_len ++ k.pubSeed ++ adrs 0
    let adrs := Rfc.Suite.treeAdrs (q.d - 1) (treeOn S idx (q.d - 1)) top 0
    let adrs' := Rfc.Suite.treeAdrs (p.d - 1) 0 (p.tree_height - 1) 0
    let received := str adrs (children leaf top
      (pathNode S k.pubSeed (q.d - 1) (treeOn S idx (q.d - 1)) leaf (recvLeaf S k.pubSeed idx body M (q.d - 1))
        (recvAuth S body (q.d - 1)) top) ((recvAuth S body (q.d - 1)).getD top []))
    let own := str adrs' ((suiteOf p H).node k.skSeed k.pubSeed (p.d - 1) 0 (p.tree_height - 1) 0,
      (suiteOf p H).node k.skSeed k.pubSeed (p.d - 1) 0 (p.tree_height - 1) 1)
    (received ≠ own ∧ H received = H own) ∨ (prfStr adrs ≠ prfStr adrs' ∧ H (prfStr adrs) = H (prfStr adrs')) := by
  intro S idx body M top leaf str prfStr adrs adrs' received own
  obtain ⟨gp, _, _, _⟩ := Family.facts (P := P) hp
  obtain ⟨g, hskb, ho, _⟩ := Family.facts (P := P) hq
  have hHl := Family.hash_length hq hH
  obtain ⟨hn, hpad, hdne⟩ : p.n = q.n ∧ p.padding_len = q.padding_len ∧ p.d ≠ q.d := by
    cases f with
    | xmss =>
      have h := C66_same_hash hp hq
      have hd : p.d = 1 ∧ q.d ≠ 1 := by
        have key : ∀ o ∈ List.range 4, ∀ p ∈ parseXmss o, ∀ q ∈ parseXmssmt o, p.d = 1 ∧ q.d ≠ 1 := by decide +kernel
        exact key oid (List.mem_range.mpr (by omega)) p hp q hq
      exact ⟨(h.1.mpr ho3).2, h.2 ho3, by omega⟩
    | xmssmt =>
      have h := C66_same_hash hq hp
      have hd : q.d = 1 ∧ p.d ≠ 1 := by
        have key : ∀ o ∈ List.range 4, ∀ p ∈ parseXmss o, ∀ q ∈ parseXmssmt o, p.d = 1 ∧ q.d ≠ 1 := by decide +kernel
        exact key oid (List.mem_range.mpr (by omega)) q hq p hp
      exact ⟨(h.1.mpr ho3).2.symm, (h.2 ho3).symm, by omega⟩
  obtain ⟨r', h1, _, h3⟩ := C23_open_is_rfc hq hH k (by rw [← hn]; exact hk.root) (by rw [← hn]; exact hk.pubSeed) sig msg m l0
    hs h64 hm
  rw [hr] at h1
  cases h1
  have hver := h3.mp hacc
  have hd := g.d_pos
  have hth := g.th_pos
  have hthp := gp.th_pos
  have hhp : S.hp = q.tree_height := g.hp_eq H
  have htop : recvMsg S k.pubSeed idx body M q.d = k.root := by
    have h := verifyLayers_recv S k.pubSeed idx body M q.d 0
    simp only [Nat.mul_zero, pow_zero, Nat.div_one, Nat.zero_mul, List.drop_zero, Nat.zero_add] at h
    rw [← h]
    exact hver
  have hleaf : leaf < 2 ^ q.tree_height := by
    rw [← hhp]; exact Nat.mod_lt _ (by positivity)
  have la : (recvAuth S body (q.d - 1)).length = q.tree_height := by simp [recvAuth, Rfc.blocks, hhp]
  have hR : H received = k.root := by
    rw [← htop]
    have e : recvMsg S k.pubSeed idx body M q.d = recvMsg S k.pubSeed idx body M (q.d - 1 + 1) := by
      rw [Nat.sub_add_cancel hd]
    rw [e, recvMsg_succ]
    have hpn := pathNode_succ S k.pubSeed (q.d - 1) (treeOn S idx (q.d - 1)) leaf
      (recvLeaf S k.pubSeed idx body M (q.d - 1)) (recvAuth S body (q.d - 1)) top (by omega)
    have htop1 : top + 1 = q.tree_height := Nat.sub_add_cancel hth
    rw [htop1, Nat.div_eq_of_lt hleaf, pathNode, List.take_of_length_le (by omega)] at hpn
    rw [hpn]
    rfl
  have hO : H own = k.root := by
    rw [hh, Rfc.Suite.root, Rfc.Suite.treeRoot, gp.hp_eq H, show p.tree_height = (p.tree_height - 1) + 1 from (Nat.sub_add_cancel hthp).symm]
    have hPRF : S.PRF = (suiteOf p H).PRF := by
      funext a b
      show H (Rfc.toByte 3 q.padding_len ++ _ ++ _) = H (Rfc.toByte 3 p.padding_len ++ _ ++ _)
      rw [hpad]
    simp only [own, str]
    rw [hPRF, ← hpad]
    rfl
  by_cases he : received = own
  · right
    constructor
    · intro hc
      have hc := List.append_cancel_left hc
      simp only [adrs, adrs', Rfc.Suite.treeAdrs, List.append_assoc] at hc
      have hc := (List.append_inj hc (by simp [toByte_length])).1
      have hq8 : q.d ≤ q.full_height := by rw [← g.height]; exact Nat.le_mul_of_pos_left _ hth
      have hp8 : p.d ≤ p.full_height := by rw [← gp.height]; exact Nat.le_mul_of_pos_left _ hthp
      have := g.fh_lt
      have := gp.fh_lt
      have := toByte_inj (by norm_num; omega) (by norm_num; omega) hc
      have := gp.d_pos
      omega
    · have he : str _ _ = str _ _ := he
      simp only [str, List.append_assoc] at he
      have he := List.append_cancel_left he
      have he := (List.append_inj he ((hHl _).trans (hHl _).symm)).1
      exact he
  · exact Or.inl ⟨he, hR.trans hO.symm⟩

/-! ### Consequences for single OIDs -/

/-- **C66 (does not hold).**  `xmssmt_sign` with a key for XMSS-SHA2_10_256: it returns 0, claims to have produced a signed message,
and the key has lost 256 of its 1024 signatures. -/
theorem C66_fails (hp : parseXmss 1 = some p) (hq : parseXmssmt 1 = some q) (k : Key) (hk : k.Valid p) (idx : Nat) (hidx : idx < 1024)
    (sm : Bytes) (l0 : Nat) (m : Bytes) (hsm : q.sig_bytes + m.length ≤ sm.length) :
    ∃ o, xmssmtSign P (k.sk p 1 idx) sm l0 m = some o ∧ o.ret = 0 ∧ o.smlen = q.sig_bytes + m.length ∧
      o.sk = k.sk p 1 (idx + 256) := by
  have hf : p.index_bytes = 4 ∧ q.index_bytes = 3 ∧ q.full_height = 20 ∧ q.sk_bytes ≤ p.sk_bytes := by
    have key : ∀ p ∈ parseXmss 1, ∀ q ∈ parseXmssmt 1, p.index_bytes = 4 ∧ q.index_bytes = 3 ∧ q.full_height = 20 ∧
      q.sk_bytes ≤ p.sk_bytes := by decide +kernel
    exact key p hp q hq
  obtain ⟨h1, h2, h3, h4⟩ := hf
  obtain ⟨o, ho, _, hl, h5, _⟩ := (C66_wrong_family (P := P) (f := .xmss) hp hq k hk idx sm l0 m).2 h4 hsm
  have e : ∀ j, k.sk p 1 j = Rfc.toByte 1 4 ++ (Rfc.toByte (j / 256) 3 ++ ([UInt8.ofNat j] ++ (k.skSeed ++ k.skPrf ++ k.root ++ k.pubSeed))) := by
    intro j
    rw [Key.sk, h1, toByte_succ j 3]
    simp
  have d : ((k.sk p 1 idx).drop 4).take q.index_bytes = Rfc.toByte (idx / 256) 3 := by
    rw [e, List.drop_left' (toByte_length _ _), h2, List.take_left' (toByte_length _ _)]
  rw [d, toNat_toByte, Nat.mod_eq_of_lt (by norm_num; omega), h3] at h5
  obtain ⟨h6, h7⟩ := h5 (by norm_num; omega)
  refine ⟨o, ho, h6, hl, ?_⟩
  rw [h7, h2, ← List.drop_drop, e idx, List.drop_left' (toByte_length _ _), List.drop_left' (toByte_length _ _), e (idx + 256),
    show (idx + 256) / 256 = idx / 256 + 1 by omega]
  have : UInt8.ofNat (idx + 256) = UInt8.ofNat idx := by
    apply UInt8.toNat_inj.mp
    simp
  rw [this]
  simp

/-- **C66 (does not hold), the key values.**  `xmssmt_sign` with a key for XMSS-SHA2_10_512 returns 0 and changes the first byte of
SK_SEED. -/
theorem C66_changes_seed (hp : parseXmss 4 = some p) (hq : parseXmssmt 4 = some q) (b : UInt8) (t : Bytes) (k : Key) (hk : k.Valid p)
    (hb : k.skSeed = b :: t) (hb' : b.toNat < 255) (idx : Nat) (hidx : idx < 1024) (sm : Bytes) (l0 : Nat) (m : Bytes)
    (hsm : q.sig_bytes + m.length ≤ sm.length) :
    ∃ o, xmssmtSign P (k.sk p 4 idx) sm l0 m = some o ∧ o.ret = 0 ∧ o.sk = Key.sk { k with skSeed := (b + 1) :: t } p 4 idx := by
  have hf : p.index_bytes = 4 ∧ q.index_bytes = 5 ∧ q.full_height = 40 ∧ q.sk_bytes ≤ p.sk_bytes := by
    have key : ∀ p ∈ parseXmss 4, ∀ q ∈ parseXmssmt 4, p.index_bytes = 4 ∧ q.index_bytes = 5 ∧ q.full_height = 40 ∧
      q.sk_bytes ≤ p.sk_bytes := by decide +kernel
    exact key p hp q hq
  obtain ⟨h1, h2, h3, h4⟩ := hf
  obtain ⟨o, ho, _, _, h5, _⟩ := (C66_wrong_family (P := P) (f := .xmss) hp hq k hk idx sm l0 m).2 h4 hsm
  have e : ∀ c : UInt8, Key.sk { k with skSeed := c :: t } p 4 idx =
      Rfc.toByte 4 4 ++ (Rfc.toByte (idx * 256 + c.toNat) 5 ++ (t ++ k.skPrf ++ k.root ++ k.pubSeed)) := by
    intro c
    have hc := c.toNat_lt
    rw [Key.sk, h1, toByte_succ _ 4, show (idx * 256 + c.toNat) / 256 = idx by omega]
    have : UInt8.ofNat (idx * 256 + c.toNat) = c := by
      apply UInt8.toNat_inj.mp
      simp
    rw [this]
    simp
  have ek : k.sk p 4 idx = Key.sk { k with skSeed := b :: t } p 4 idx := by rw [← hb]
  have d : ((k.sk p 4 idx).drop 4).take q.index_bytes = Rfc.toByte (idx * 256 + b.toNat) 5 := by
    rw [ek, e, List.drop_left' (toByte_length _ _), h2, List.take_left' (toByte_length _ _)]
  rw [d, toNat_toByte, Nat.mod_eq_of_lt (by norm_num; omega), h3] at h5
  obtain ⟨h6, h7⟩ := h5 (by norm_num; omega)
  refine ⟨o, ho, h6, ?_⟩
  rw [h7, h2, ← List.drop_drop, ek, e b, List.drop_left' (toByte_length _ _), List.drop_left' (toByte_length _ _), e (b + 1)]
  have : (b + 1).toNat = b.toNat + 1 := by
    rw [UInt8.toNat_add]; simp; omega
  rw [this]
  simp [Nat.add_assoc]

/-- **C66 (does not hold), deletion.**  `xmss_sign` with a key for XMSSMT-SHA2_40/2_256 that has used more than 2^28 of its 2^40
signatures deletes the key. -/
theorem C66_deletes_key (hp : parseXmssmt 3 = some p) (hq : parseXmss 3 = some q) (k : Key) (hk : k.Valid p)
    (idx : Nat) (hlo : 2 ^ 28 ≤ idx) (hhi : idx < 2 ^ 40) (sm : Bytes) (l0 : Nat) (m : Bytes) (hsm : q.sig_bytes + m.length ≤ sm.length) :
    ∃ o, xmssSign P (k.sk p 3 idx) sm l0 m = some o ∧ o.ret = -2 ∧
      o.sk = Rfc.toByte 3 4 ++ List.replicate 4 0xFF ++ List.replicate 128 0 ++ k.pubSeed.drop 31 := by
  have hf : p.index_bytes = 5 ∧ p.n = 32 ∧ q.index_bytes = 4 ∧ q.n = 32 ∧ q.full_height = 20 ∧ q.sk_bytes = 132 ∧ p.sk_bytes = 133 := by
    have key : ∀ p ∈ parseXmssmt 3, ∀ q ∈ parseXmss 3, p.index_bytes = 5 ∧ p.n = 32 ∧ q.index_bytes = 4 ∧ q.n = 32 ∧ q.full_height = 20 ∧
      q.sk_bytes = 132 ∧ p.sk_bytes = 133 := by decide +kernel
    exact key p hp q hq
  obtain ⟨h1, h1', h2, h2', h3, h4, h4'⟩ := hf
  obtain ⟨o, ho, _, _, _, h5⟩ := (C66_wrong_family (P := P) (f := .xmssmt) hp hq k hk idx sm l0 m).2 (by omega) hsm
  have e : k.sk p 3 idx = Rfc.toByte 3 4 ++ (Rfc.toByte (idx / 256) 4 ++ ([UInt8.ofNat idx] ++ (k.skSeed ++ k.skPrf ++ k.root ++ k.pubSeed))) := by
    rw [Key.sk, h1, toByte_succ idx 4]
    simp
  have d : ((k.sk p 3 idx).drop 4).take q.index_bytes = Rfc.toByte (idx / 256) 4 := by
    rw [e, List.drop_left' (toByte_length _ _), h2, List.take_left' (toByte_length _ _)]
  rw [d, toNat_toByte, Nat.mod_eq_of_lt (by norm_num; omega), h3] at h5
  obtain ⟨h6, h7⟩ := h5 (by norm_num at hlo ⊢; omega)
  refine ⟨o, ho, h6, ?_⟩
  rw [h7, h2, h2', h4, Key.sk]
  congr 1
  have a1 := hk.skSeed
  have a2 := hk.skPrf
  have a3 := hk.root
  rw [h1'] at a1 a2 a3
  rw [show 4 + 132 = (4 + 5 + 32 + 32 + 32) + 31 by rfl, ← List.drop_drop, h1]
  congr 1
  rw [← List.append_assoc]
  exact List.drop_left' (by simp [toByte_length, a1, a2, a3])

/-- ... and `xmssmt_sign` does not notice: the deleted key is not an exhausted one (its index is 2^40 - 256), and the next call returns
0, with a signature made from SK_SEED = SK_PRF = root = 0. -/
theorem C66_deleted_key_signs (hp : parseXmssmt 3 = some p) (hq : parseXmss 3 = some q) (hH : coreHash P p.func p.n = some H)
    (k : Key) (hk : k.Valid p) (idx : Nat) (hlo : 2 ^ 28 ≤ idx) (hhi : idx < 2 ^ 40) (sm : Bytes) (l0 : Nat) (m : Bytes)
    (hsm : q.sig_bytes + m.length ≤ sm.length) (sm' : Bytes) (l0' : Nat) (m' : Bytes) (hsm' : sm'.length = p.sig_bytes + m'.length) :
    ∃ o o', xmssSign P (k.sk p 3 idx) sm l0 m = some o ∧ xmssmtSign P o.sk sm' l0' m' = some o' ∧ o'.ret = 0 ∧
      o'.sm = (suiteOf p H).sign (List.replicate 32 0) (List.replicate 32 0) (List.replicate 32 0)
        (List.replicate 31 0 ++ k.pubSeed.drop 31) (2 ^ 40 - 256) m' ++ m' := by
  obtain ⟨o, h1, _, h3⟩ := C66_deletes_key (P := P) hp hq k hk idx hlo hhi sm l0 m hsm
  have hf : p.index_bytes = 5 ∧ p.n = 32 ∧ p.full_height = 40 := by
    have key : ∀ p ∈ parseXmssmt 3, p.index_bytes = 5 ∧ p.n = 32 ∧ p.full_height = 40 := by decide +kernel
    exact key p hp
  obtain ⟨f1, f2, f3⟩ := hf
  have a4 := hk.pubSeed
  let k' : Key := ⟨List.replicate 32 0, List.replicate 32 0, List.replicate 32 0, List.replicate 31 0 ++ k.pubSeed.drop 31⟩
  have hk' : k'.Valid p := ⟨by simp [k', f2], by simp [k', f2], by simp [k', f2], by simp [k', f2, a4]⟩
  have e : o.sk = k'.sk p 3 (2 ^ 40 - 256) := by
    rw [h3, Key.sk, f1]
    have : Rfc.toByte (2 ^ 40 - 256) 5 = List.replicate 4 0xFF ++ [0] := by decide +kernel
    rw [this]
    have : List.replicate 128 (0 : UInt8) = [0] ++ List.replicate 32 0 ++ List.replicate 32 0 ++ List.replicate 32 0 ++ List.replicate 31 0 := by
      decide +kernel
    rw [this]
    simp only [k', List.append_assoc]
  have h := C23_sign_is_rfc (P := P) (f := .xmssmt) hp hH k' hk' (2 ^ 40 - 256) (by rw [f3]; decide +kernel) sm' l0' m' hsm'
  rw [← e] at h
  exact ⟨o, _, h1, h, rfl, rfl⟩

/-! ### Non-vacuity -/

/-- Non-vacuity of `C66_open_collision`: with a worthless hash function in place of SHA-256, `xmssmt_sign_open` accepts everything of
sufficient length under every honest key for XMSS-SHA2_10_256. -/
theorem C66_met_by_worthless_hash (hp : parseXmss 1 = some p) (hq : parseXmssmt 1 = some q) (k : Key) (hk : k.Valid p)
    (hroot : k.root = List.replicate 32 0) (sig msg m : Bytes) (l0 : Nat) (hs : sig.length = q.sig_bytes)
    (h64 : q.sig_bytes + msg.length < 2 ^ 64) (hm : q.sig_bytes + msg.length ≤ m.length) :
    k.Honest (suiteOf p constPrims.sha256) ∧ coreHash constPrims q.func q.n = some constPrims.sha256 ∧
    ∃ r, xmssmtSignOpen constPrims m l0 (sig ++ msg) (q.sig_bytes + msg.length) (k.pk 1) = some r ∧ r.ret = 0 := by
  have hc : coreHash constPrims q.func q.n = some constPrims.sha256 := by
    have : q.func = .sha2 ∧ q.n = 32 := by
      have key : ∀ q ∈ parseXmssmt 1, q.func = .sha2 ∧ q.n = 32 := by decide +kernel
      exact key q hq
    rw [this.1, this.2]; rfl
  obtain ⟨gp, _, _, _⟩ := Family.facts (P := constPrims) (f := .xmss) hp
  obtain ⟨g, _, _, _⟩ := Family.facts (P := constPrims) (f := .xmssmt) hq
  have hn : p.n = q.n := ((C66_same_hash hp hq).1.mpr (by omega)).2
  refine ⟨?_, hc, ?_⟩
  · rw [Key.Honest, hroot, Rfc.Suite.root, Rfc.Suite.treeRoot, gp.hp_eq, show p.tree_height = (p.tree_height - 1) + 1 from
      (Nat.sub_add_cancel gp.th_pos).symm]
    rfl
  · obtain ⟨r, h1, _, h3⟩ := C23_open_is_rfc (f := .xmssmt) hq hc k (by rw [← hn]; exact hk.root) (by rw [← hn]; exact hk.pubSeed)
      sig msg m l0 hs h64 hm
    refine ⟨r, h1, h3.mpr ?_⟩
    have h := verifyLayers_recv (suiteOf q constPrims.sha256) k.pubSeed (Rfc.toNat (sig.take q.index_bytes))
      (sig.drop (q.index_bytes + q.n)) ((suiteOf q constPrims.sha256).digest ((sig.drop q.index_bytes).take q.n) k.root
        (Rfc.toNat (sig.take q.index_bytes)) msg) q.d 0
    simp only [Nat.mul_zero, pow_zero, Nat.div_one, Nat.zero_mul, List.drop_zero, Nat.zero_add] at h
    refine h.trans ?_
    have e : q.d = q.d - 1 + 1 := (Nat.sub_add_cancel g.d_pos).symm
    rw [e, recvMsg_succ, hroot]
    refine climb_const _ _ (fun _ => rfl) _ _ _ _ _ _ _ ?_
    intro hnil
    have := congrArg List.length hnil
    simp only [recvAuth, Rfc.blocks, List.length_map, List.length_range, List.length_nil, g.hp_eq] at this
    have := g.th_pos
    omega

/-- Non-vacuity: such keys exist. -/
example : ∃ p q k, parseXmss 1 = some p ∧ parseXmssmt 1 = some q ∧ Key.Valid k p ∧ k.root = List.replicate 32 0 := by
  refine ⟨Toy.p, _, Key.zero Toy.p, rfl, rfl, ⟨?_, ?_, ?_, ?_⟩, ?_⟩ <;> decide +kernel

end Xmss
