import Verif.Model.KeygenOs
import Verif.Props.RandomBytes
import Verif.Props.FastHistory
/-
C54: key generation with the operating system's random device.
-/
namespace Xmss

variable {P : Prims} {f : Family} {oid : Nat} {p : Params} {H : Bytes → Bytes}

theorem keypairOs_eq (hp : f.parse oid = some p) (buf : Nat → Bytes) (isOpen : Bool) (opens : List Bool)
    (reads : List ReadResult) (pk0 sk0 : Bytes) {out : RandomOut}
    (hr : randombytes isOpen opens reads (buf (3 * p.n)) 0 (3 * p.n) = some out)
    {r : Bytes → Int × Bytes × Bytes}
    (hk : ∀ seed tr rest, out = .returned seed tr rest → f.keypair P pk0 sk0 oid (fun _ => seed) = some (r seed))
    (hpk : pk0.length = 4 + p.pk_bytes) (hsk : sk0.length = 4 + p.sk_bytes) :
    keypairOs P f buf isOpen opens reads pk0 sk0 oid = some (match out with
      | .waiting => .waiting
      | .returned seed _ rest => .done (r seed).1 (r seed).2.1 (r seed).2.2 rest) := by
  have w : ∀ b : Bytes, 4 ≤ b.length → ∃ b', wr b 0 (oidBytes oid) = some b' := fun b hb =>
    ⟨_, wr_some (by rw [oidBytes_eq, toByte_length]; omega)⟩
  obtain ⟨pk1, w1⟩ := w pk0 (by omega)
  obtain ⟨sk1, w2⟩ := w sk0 (by omega)
  rw [keypairOs, apiKeypairOs, hp]
  simp only [w1, w2, Option.bind_eq_bind, Option.bind_some, hr]
  cases out with
  | waiting => rfl
  | returned seed tr rest =>
    have h := hk seed tr rest rfl
    rw [Family.keypair_eq, apiKeypair, hp] at h
    simp only [w1, w2, Option.bind_eq_bind, Option.bind_some] at h
    obtain ⟨H, hH, h⟩ := Option.bind_eq_some_iff.mp h
    obtain ⟨q, hq, h⟩ := Option.bind_eq_some_iff.mp h
    simp only [Option.some.injEq] at h
    simp only [hH, Option.bind_some, hq, ← h]

/-- C54, simple implementation.  Whatever the device does, key generation into buffers of the announced sizes is defined.
When it returns, it returns 0 and the key it has generated contains, as SK_SEED, SK_PRF and PUB_SEED in this order, exactly
the first `3n` bytes read from the device: nothing else of the buffer, no byte twice. -/
theorem C54_seeds_are_device_bytes (hp : f.parse oid = some p) (hH : coreHash P p.func p.n = some H)
    (buf : Nat → Bytes) (hbuf : (buf (3 * p.n)).length = 3 * p.n) (isOpen : Bool) (opens : List Bool)
    (reads : List ReadResult) (pk0 sk0 : Bytes) (hpk : pk0.length = 4 + p.pk_bytes) (hsk : sk0.length = 4 + p.sk_bytes) :
    ∃ out, keypairOs P f buf isOpen opens reads pk0 sk0 oid = some out ∧
      ∀ ret pk sk rest, out = .done ret pk sk rest →
        ∃ (k : Key) (used : List ReadResult) (tr : List (Nat × Nat × Bytes)), reads = used ++ rest ∧ From used tr ∧
          Contiguous 0 (3 * p.n) tr ∧ k.skSeed ++ k.skPrf ++ k.pubSeed = stored tr ∧ k.Valid p ∧
          k.Honest (suiteOf p H) ∧ ret = 0 ∧ pk = k.pk oid ∧ sk = k.sk p oid 0 := by
  obtain ⟨o, ho, h⟩ := C40_fills_buffer isOpen opens reads (buf (3 * p.n)) 0 (3 * p.n) (by omega)
  have hkey : ∀ seed : Bytes, seed.length = 3 * p.n → ∃ k : Key, seed = k.skSeed ++ k.skPrf ++ k.pubSeed ∧ k.Valid p ∧
      k.Honest (suiteOf p H) ∧ f.keypair P pk0 sk0 oid (fun _ => seed) = some (0, k.pk oid, k.sk p oid 0) := by
    intro seed hs
    have e : seed = seed.take p.n ++ (seed.drop p.n).take p.n ++ seed.drop (2 * p.n) := by
      conv_lhs => rw [← List.take_append_drop p.n seed, ← List.take_append_drop p.n (seed.drop p.n)]
      rw [List.drop_drop, ← List.append_assoc]
      congr 2; omega
    obtain ⟨k, a, b, c, hh, hv, hkp, _⟩ := C30_key_layout (P := P) hp hH pk0 sk0 hpk hsk (fun _ => seed) _ _ _ e
      (by simp; omega) (by simp; omega) (by simp; omega)
    exact ⟨k, by rw [a, b, c]; exact e, hv, hh, hkp⟩
  cases o with
  | waiting =>
    exact ⟨.waiting, keypairOs_eq (r := fun _ => (0, [], [])) hp buf isOpen opens reads pk0 sk0 ho
      (fun _ _ _ h => by cases h) hpk hsk, fun _ _ _ _ h => by cases h⟩
  | returned seed tr rest =>
    obtain ⟨used, h1, h2, h3, h4, h5⟩ := h seed tr rest rfl
    have hs : seed = stored tr := by
      rw [h5, Nat.zero_add, List.drop_of_length_le (by omega)]; simp
    obtain ⟨k, e, hv, hh, hkp⟩ := hkey seed (by rw [hs, h4])
    refine ⟨_, keypairOs_eq (r := fun _ => (0, k.pk oid, k.sk p oid 0)) hp buf isOpen opens reads pk0 sk0 ho ?_ hpk hsk, ?_⟩
    · intro seed' tr' rest' he
      simp only [RandomOut.returned.injEq] at he
      rw [← he.1]; exact hkp
    · intro ret pk sk rest' he
      simp only [KeygenOut.done.injEq] at he
      obtain ⟨rfl, rfl, rfl, rfl⟩ := he
      exact ⟨k, used, tr, h1, h2, h3, by rw [← e, hs], hv, hh, rfl, rfl, rfl⟩

/-- C54, simple implementation.  It waits as long as fewer than `3n` bytes have been delivered, and returns when the device
can be opened and `3n` bytes have been delivered. -/
theorem C54_waits_for_entropy (hp : f.parse oid = some p)
    (buf : Nat → Bytes) (hbuf : (buf (3 * p.n)).length = 3 * p.n) (isOpen : Bool) (opens : List Bool)
    (reads : List ReadResult) (pk0 sk0 : Bytes) (hpk : pk0.length = 4 + p.pk_bytes) (hsk : sk0.length = 4 + p.sk_bytes) :
    (((reads.map fun r => r.getD []).flatten).length < 3 * p.n →
      keypairOs P f buf isOpen opens reads pk0 sk0 oid = some .waiting) ∧
    (3 * p.n ≤ ((reads.map fun r => r.getD []).flatten).length → isOpen = true ∨ true ∈ opens →
      (∀ d ∈ reads, (d.getD []).length ≤ 1048576) →
      ∃ pk sk rest, keypairOs P f buf isOpen opens reads pk0 sk0 oid = some (.done 0 pk sk rest)) := by
  constructor
  · intro hfew
    exact keypairOs_eq (r := fun _ => (0, [], [])) hp buf isOpen opens reads pk0 sk0
      (C40_does_not_return_early isOpen opens reads _ 0 _ (by omega) (Or.inl hfew)) (fun _ _ _ h => by cases h) hpk hsk
  · intro henough hopen hsmall
    obtain ⟨H, hH, _⟩ : ∃ H, coreHash P p.func p.n = some H ∧ ∀ x, (H x).length = p.n := by
      cases f with
      | xmss => exact C12_core_hash P _ oid p (Or.inl hp)
      | xmssmt => exact C12_core_hash P _ oid p (Or.inr hp)
    obtain ⟨m, tr, rest, hr⟩ := C40_returns isOpen opens reads (buf (3 * p.n)) 0 (3 * p.n) (by omega) hopen hsmall henough
    obtain ⟨out, ho, h⟩ := C54_seeds_are_device_bytes hp hH buf hbuf isOpen opens reads pk0 sk0 hpk hsk
    cases out with
    | done ret pk sk rest =>
      obtain ⟨_, _, _, _, _, _, _, _, _, rfl, _⟩ := h ret pk sk rest rfl
      exact ⟨pk, sk, rest, ho⟩
    | waiting =>
      exfalso
      rw [keypairOs, apiKeypairOs, hp] at ho
      obtain ⟨pk1, _, ho⟩ := Option.bind_eq_some_iff.mp ho
      obtain ⟨sk1, _, ho⟩ := Option.bind_eq_some_iff.mp ho
      simp only [hr, Option.bind_eq_bind, Option.bind_some] at ho
      obtain ⟨_, _, ho⟩ := Option.bind_eq_some_iff.mp ho
      obtain ⟨_, _, ho⟩ := Option.bind_eq_some_iff.mp ho
      cases ho

/-! ### The fast implementation: two calls with pointers into the secret key -/

/-- The core of key generation of either family, fast implementation. -/
def fastCoreKeypair : Family → (Bytes → Bytes) → Params → Bytes → Bytes → Bytes → Option (Bytes × Bytes)
  | .xmss => fastXmssKeypair
  | .xmssmt => fastXmssmtKeypair

theorem keypairFast_core (f : Family) : f.keypairFast P = apiKeypairFast P f.parseFast (fastCoreKeypair f) := by
  cases f <;> rfl

theorem keypairFastOs_core (f : Family) : keypairFastOs P f = apiKeypairFastOs P f.parseFast (fastCoreKeypair f) := by
  cases f <;> rfl

/-- Reads appended behind those that a call uses change nothing. -/
theorem randomLoop_append (rs' : List ReadResult) : ∀ (rs : List ReadResult) (mem : Bytes) (x xlen : Nat)
    (tr : List (Nat × Nat × Bytes)) {m t rest}, randomLoop rs mem x xlen tr = some (.returned m t rest) →
    randomLoop (rs ++ rs') mem x xlen tr = some (.returned m t (rest ++ rs')) := by
  intro rs
  induction rs with
  | nil =>
    intro mem x xlen tr m t rest h
    cases xlen with
    | zero =>
      simp only [randomLoop, Option.some.injEq, RandomOut.returned.injEq] at h
      obtain ⟨rfl, rfl, rfl⟩ := h
      cases rs' <;> simp [randomLoop]
    | succ n => simp [randomLoop] at h
  | cons r rs ih =>
    intro mem x xlen tr m t rest h
    cases xlen with
    | zero =>
      have e : ∀ l : List ReadResult, randomLoop l mem x 0 tr = some (.returned mem tr l) := by
        intro l; cases l with
        | nil => rfl
        | cons a l => cases a <;> rfl
      rw [e] at h ⊢
      simp only [Option.some.injEq, RandomOut.returned.injEq] at h
      obtain ⟨rfl, rfl, rfl⟩ := h
      rfl
    | succ n =>
      cases r with
      | none => exact ih _ _ _ _ h
      | some d =>
        rw [randomLoop] at h
        rw [List.cons_append, randomLoop]
        split at h
        · rename_i h1
          rw [if_pos h1]
          exact ih _ _ _ _ h
        · rename_i h1
          rw [if_neg h1]
          cases hw : wr mem x (d.take (readRequest (n + 1))) with
          | none => rw [hw] at h; cases h
          | some m' =>
            rw [hw] at h
            exact ih _ _ _ _ h

/-- What key generation of the fast implementation does with the device. -/
theorem keypairFastOs_eq (hp : f.parseFast oid = some p) (hH : coreHash P p.func p.n = some H) (isOpen : Bool)
    (opens : List Bool) (reads : List ReadResult) (pk0 sk0 : Bytes) (hpk : pk0.length = 4 + p.pk_bytes)
    (hsk : sk0.length = 4 + p.sk_bytes) :
    (keypairFastOs P f isOpen opens reads pk0 sk0 oid = some .waiting ∧
      ¬ ∃ m1 t1 r1 m2 t2 r2, randombytes isOpen opens reads (sk0.drop 4) p.index_bytes (2 * p.n) = some (.returned m1 t1 r1) ∧
        randombytes true [] r1 m1 (p.index_bytes + 3 * p.n) p.n = some (.returned m2 t2 r2)) ∨
    ∃ (k : Key) (used1 used2 rest : List ReadResult) (tr1 tr2 : List (Nat × Nat × Bytes)) (sk : Bytes),
      reads = used1 ++ used2 ++ rest ∧ From used1 tr1 ∧ From used2 tr2 ∧
      Contiguous p.index_bytes (2 * p.n) tr1 ∧ Contiguous (p.index_bytes + 3 * p.n) p.n tr2 ∧
      k.skSeed ++ k.skPrf = stored tr1 ∧ k.pubSeed = stored tr2 ∧ k.Valid p ∧ k.Honest (suiteOf p H) ∧
      keypairFastOs P f isOpen opens reads pk0 sk0 oid = some (.done 0 (k.pk oid) (Rfc.toByte oid 4 ++ sk) rest) ∧
      ∃ buf, buf.length = 4 + p.sk_bytes ∧ f.keypairFast P pk0 buf oid (fun _ => k.skSeed ++ k.skPrf ++ k.pubSeed) =
        some (0, k.pk oid, Rfc.toByte oid 4 ++ sk) := by
  obtain ⟨g, hskb, _⟩ := parseFast_good hp
  have hbig : p.index_bytes + 4 * p.n ≤ p.sk_bytes := by
    rw [hskb, fastSkBytes]; omega
  have w : ∀ b : Bytes, 4 ≤ b.length → wr b 0 (oidBytes oid) = some (Rfc.toByte oid 4 ++ b.drop 4) := fun b hb => by
    rw [oidBytes_eq, wr_some (by rw [toByte_length]; omega), toByte_length]; simp
  have t1 : ∀ x : Bytes, (Rfc.toByte oid 4 ++ x).drop oidLen = x := fun x => List.drop_left' (toByte_length _ _)
  have t2 : ∀ x : Bytes, (Rfc.toByte oid 4 ++ x).take oidLen = Rfc.toByte oid 4 := fun x => List.take_left' (toByte_length _ _)
  have hb0 : (sk0.drop 4).length = p.sk_bytes := by simp; omega
  rw [keypairFastOs_core, apiKeypairFastOs, hp]
  simp only [w pk0 (by omega), w sk0 (by omega), Option.bind_eq_bind, Option.bind_some, t1, t2]
  obtain ⟨o1, h1, s1⟩ := C40_fills_buffer isOpen opens reads (sk0.drop 4) p.index_bytes (2 * p.n) (by omega)
  rw [h1]
  cases o1 with
  | waiting =>
    left
    refine ⟨rfl, ?_⟩
    rintro ⟨_, _, _, _, _, _, h, _⟩
    cases h
  | returned m1 tr1 r1 =>
    obtain ⟨u1, e1, f1, c1, l1, hm1⟩ := s1 m1 tr1 r1 rfl
    have hl1 : m1.length = p.sk_bytes := by rw [hm1]; simp [l1]; omega
    obtain ⟨o2, h2, s2⟩ := C40_fills_buffer true [] r1 m1 (p.index_bytes + 3 * p.n) p.n (by omega)
    simp only [Option.bind_some, h2]
    cases o2 with
    | waiting =>
      left
      refine ⟨rfl, ?_⟩
      rintro ⟨_, _, _, _, _, _, h, h'⟩
      simp only [Option.some.injEq, RandomOut.returned.injEq] at h
      obtain ⟨rfl, rfl, rfl⟩ := h
      rw [h2] at h'
      cases h'
    | returned m2 tr2 r2 =>
      obtain ⟨u2, e2, f2, c2, l2, hm2⟩ := s2 m2 tr2 r2 rfl
      have hl2 : m2.length = p.sk_bytes := by rw [hm2]; simp [l2]; omega
      have g1 : rd m2 p.index_bytes (2 * p.n) = some (stored tr1) := by
        refine rd_mid ((sk0.drop 4).take p.index_bytes)
          (((sk0.drop 4).drop (p.index_bytes + 2 * p.n)).take p.n ++ stored tr2 ++ m1.drop (p.index_bytes + 3 * p.n + p.n)) ?_
          (by simp; omega) l1.symm
        rw [hm2]
        rw [show m1.take (p.index_bytes + 3 * p.n) =
          ((sk0.drop 4).take p.index_bytes ++ stored tr1) ++ ((sk0.drop 4).drop (p.index_bytes + 2 * p.n)).take p.n from ?_]
        · simp
        · rw [hm1, List.take_append]
          have : ((sk0.drop 4).take p.index_bytes ++ stored tr1).length = p.index_bytes + 2 * p.n := by simp [l1]; omega
          rw [List.take_of_length_le (by omega), this]
          congr 2; omega
      have g2 : rd m2 (p.index_bytes + 3 * p.n) p.n = some (stored tr2) :=
        rd_mid _ _ hm2 (by simp; omega) l2.symm
      simp only [Option.bind_some, g1, g2, hH]
      right
      obtain ⟨k, hv, hh, hsd, sk, hskl, hkp, _⟩ := fast_history (P := P) hp hH pk0 (Rfc.toByte oid 4 ++ m2) hpk
        (by rw [List.length_append, toByte_length, hl2]) (fun _ => stored tr1 ++ stored tr2)
        (by simp [l1, l2]; omega)
      have hs1 : k.skSeed ++ k.skPrf = stored tr1 ∧ k.pubSeed = stored tr2 := by
        have := List.append_inj hsd.symm (by rw [l1, List.length_append, hv.1, hv.2]; omega)
        exact this
      refine ⟨k, u1, u2, r2, tr1, tr2, sk, by rw [List.append_assoc, ← e2, e1], f1, f2, c1, c2, hs1.1, hs1.2, hv, hh, ?_,
        Rfc.toByte oid 4 ++ m2, by rw [List.length_append, toByte_length, hl2], by rw [hs1.1, hs1.2]; exact hkp⟩
      rw [keypairFast_core, apiKeypairFast, hp] at hkp
      simp only [w pk0 (by omega), w _ (show 4 ≤ (Rfc.toByte oid 4 ++ m2).length by rw [List.length_append, toByte_length]; omega),
        hH, Option.bind_eq_bind, Option.bind_some, t1, t2] at hkp
      rw [show (Rfc.toByte oid 4 ++ m2).drop 4 = m2 from t1 m2] at hkp
      obtain ⟨q, hq, h⟩ := Option.bind_eq_some_iff.mp hkp
      simp only [Option.some.injEq, Prod.mk.injEq, true_and] at h
      rw [hq]
      simp only [Option.bind_some, h.1, h.2]

/-- C30 for the fast implementation: the generated keys have the announced sizes, the public key is `OID || root ||
PUB_SEED`, and the secret key begins with what the simple implementation stores, `OID || index 0 || SK_SEED || SK_PRF ||
root || PUB_SEED`, followed by the serialised state. -/
theorem C30_key_layout_fast (hp : f.parseFast oid = some p) (hH : coreHash P p.func p.n = some H) (pk0 sk0 : Bytes)
    (hpk : pk0.length = 4 + p.pk_bytes) (hsk : sk0.length = 4 + p.sk_bytes) (seed : Nat → Bytes)
    (skSeed skPrf pubSeed : Bytes) (hs : seed p.n = skSeed ++ skPrf ++ pubSeed)
    (h1 : skSeed.length = p.n) (h2 : skPrf.length = p.n) (h3 : pubSeed.length = p.n) :
    ∃ k : Key, k.skSeed = skSeed ∧ k.skPrf = skPrf ∧ k.pubSeed = pubSeed ∧ k.Honest (suiteOf p H) ∧ k.Valid p ∧
      ∃ sk, f.keypairFast P pk0 sk0 oid seed = some (0, k.pk oid, sk) ∧ (k.pk oid).length = 4 + p.pk_bytes ∧
        sk.length = 4 + p.sk_bytes ∧ sk.take (4 + p.index_bytes + 4 * p.n) = k.sk p oid 0 := by
  obtain ⟨g, _, _⟩ := parseFast_good hp
  have hHl : ∀ x, (H x).length = p.n := by
    obtain ⟨H', h, h'⟩ := Family.hashFast (P := P) hp
    rw [hH] at h; cases h; exact h'
  have hpkb := g.pk_eq
  have hv : (Key.mk skSeed skPrf ((suiteOf p H).root skSeed pubSeed) pubSeed).Valid p :=
    ⟨h1, h2, node_length g hHl _ _ _ _ _ _, h3⟩
  obtain ⟨k', hv', _, hsd, sk, hl, hkp, _⟩ := fast_history (P := P) hp hH pk0 sk0 hpk hsk seed (by rw [hs]; simp; omega)
  obtain ⟨states, sigs, hcore⟩ : ∃ states sigs, fastCoreKeypair f H p (pk0.drop 4) (sk0.drop 4) (seed p.n) =
      some ((suiteOf p H).root skSeed pubSeed ++ pubSeed,
        (Key.mk skSeed skPrf ((suiteOf p H).root skSeed pubSeed) pubSeed).fast p 0 states sigs) := by
    rw [hs]
    cases f with
    | xmss =>
      obtain ⟨s, _, e⟩ := fastXmssKeypair_eq (parseFast_fast1 hp) hHl (pk0.drop 4) (sk0.drop 4) skSeed skPrf pubSeed
        (by simp; omega) (by simp; omega) h1 h2 h3
      exact ⟨_, _, e⟩
    | xmssmt =>
      obtain ⟨_, _, states, sigs, _, _, _, e⟩ := fastXmssmtKeypair_eq (parseFast_mt hp) hHl (pk0.drop 4) (sk0.drop 4)
        skSeed skPrf pubSeed (by simp; omega) (by simp; omega) h1 h2 h3
      exact ⟨_, _, e⟩
  have hapi := apiKeypairFast_eq (P := P) (core := fastCoreKeypair f) hp hH (pk := pk0) (sk := sk0) (by omega) (by omega) hcore
  rw [← keypairFast_core, hkp] at hapi
  simp only [Option.some.injEq, Prod.mk.injEq, true_and] at hapi
  refine ⟨⟨skSeed, skPrf, (suiteOf p H).root skSeed pubSeed, pubSeed⟩, rfl, rfl, rfl, rfl, hv, Rfc.toByte oid 4 ++ sk, ?_, ?_, ?_, ?_⟩
  · rw [hkp, hapi.1, Key.pk]
  · simp only [Key.pk, List.length_append, toByte_length, hv.3, h3, g.pk_eq]; omega
  · rw [List.length_append, toByte_length, hl]
  · have e := List.append_cancel_left hapi.2
    rw [e, show 4 + p.index_bytes + 4 * p.n = (Rfc.toByte oid 4).length + (p.index_bytes + 4 * p.n) by rw [toByte_length]; omega,
      List.take_length_add_append, Key.fast_take hv]
    simp [Key.sk]

/-- C54, fast implementation.  Whatever the device does, key generation into buffers of the announced sizes is defined.
When it returns, it returns 0 and the generated key contains, as SK_SEED, SK_PRF and PUB_SEED in this order, exactly the
first `3n` bytes read from the device; the secret key stores the same key. -/
theorem C54_seeds_are_device_bytes_fast (hp : f.parseFast oid = some p) (hH : coreHash P p.func p.n = some H)
    (isOpen : Bool) (opens : List Bool) (reads : List ReadResult) (pk0 sk0 : Bytes)
    (hpk : pk0.length = 4 + p.pk_bytes) (hsk : sk0.length = 4 + p.sk_bytes) :
    ∃ out, keypairFastOs P f isOpen opens reads pk0 sk0 oid = some out ∧
      ∀ ret pk sk rest, out = .done ret pk sk rest →
        ∃ (k : Key) (used1 used2 : List ReadResult) (tr1 tr2 : List (Nat × Nat × Bytes)),
          reads = used1 ++ used2 ++ rest ∧ From used1 tr1 ∧ From used2 tr2 ∧
          (stored tr1).length = 2 * p.n ∧ (stored tr2).length = p.n ∧
          k.skSeed ++ k.skPrf ++ k.pubSeed = stored tr1 ++ stored tr2 ∧ k.Valid p ∧ k.Honest (suiteOf p H) ∧ ret = 0 ∧
          pk = k.pk oid ∧ sk.length = 4 + p.sk_bytes ∧
          sk.take (4 + p.index_bytes + 4 * p.n) = k.sk p oid 0 := by
  rcases keypairFastOs_eq hp hH isOpen opens reads pk0 sk0 hpk hsk with ⟨h, _⟩ |
    ⟨k, u1, u2, rest, tr1, tr2, sk, e, f1, f2, _, _, s1, s2, hv, hh, h, buf, hb, hkp⟩
  · exact ⟨_, h, fun _ _ _ _ h => by cases h⟩
  · refine ⟨_, h, ?_⟩
    intro ret pk sk' rest' he
    simp only [KeygenOut.done.injEq] at he
    obtain ⟨rfl, rfl, rfl, rfl⟩ := he
    obtain ⟨k2, a, b, c, hh2, _, sk2, hkp2, _, l2, t2⟩ := C30_key_layout_fast (P := P) hp hH pk0 buf hpk hb
      (fun _ => k.skSeed ++ k.skPrf ++ k.pubSeed) _ _ _ rfl hv.1 hv.2 hv.4
    have hk : k2 = k := by
      cases k; cases k2
      simp only [Key.Honest] at *
      subst a b c
      rw [hh2, hh]
    subst hk
    rw [hkp2] at hkp
    simp only [Option.some.injEq, Prod.mk.injEq, true_and] at hkp
    rw [hkp] at l2 t2
    refine ⟨k2, u1, u2, tr1, tr2, e, f1, f2, ?_, ?_, by rw [s1, s2], hv, hh, rfl, rfl, l2, t2⟩
    · rw [← s1, List.length_append, hv.1, hv.2]; omega
    · rw [← s2, hv.4]

/-- C54, fast implementation.  It waits as long as fewer than `3n` bytes have been delivered; and it returns when the device
can be opened and delivers `2n` bytes and after them `n` bytes. -/
theorem C54_waits_for_entropy_fast (hp : f.parseFast oid = some p) (isOpen : Bool) (opens : List Bool)
    (reads : List ReadResult) (pk0 sk0 : Bytes) (hpk : pk0.length = 4 + p.pk_bytes) (hsk : sk0.length = 4 + p.sk_bytes) :
    (((reads.map fun r => r.getD []).flatten).length < 3 * p.n →
      keypairFastOs P f isOpen opens reads pk0 sk0 oid = some .waiting) ∧
    (∀ reads1 reads2, reads = reads1 ++ reads2 → 2 * p.n ≤ ((reads1.map fun r => r.getD []).flatten).length →
      p.n ≤ ((reads2.map fun r => r.getD []).flatten).length → isOpen = true ∨ true ∈ opens →
      (∀ d ∈ reads, (d.getD []).length ≤ 1048576) →
      ∃ pk sk rest, keypairFastOs P f isOpen opens reads pk0 sk0 oid = some (.done 0 pk sk rest)) := by
  obtain ⟨H, hH, _⟩ := Family.hashFast (P := P) hp
  obtain ⟨g, hskb, _⟩ := parseFast_good hp
  have hbig : p.index_bytes + 4 * p.n ≤ p.sk_bytes := by
    rw [hskb, fastSkBytes]; omega
  have key := keypairFastOs_eq hp hH isOpen opens reads pk0 sk0 hpk hsk
  have hb0 : (sk0.drop 4).length = p.sk_bytes := by simp; omega
  constructor
  · intro hfew
    rcases key with ⟨h, _⟩ | ⟨k, u1, u2, rest, tr1, tr2, sk, e, f1, f2, _, _, s1, s2, hv, _⟩
    · exact h
    · exfalso
      have b1 := From.stored_le f1
      have b2 := From.stored_le f2
      rw [← s1] at b1
      rw [← s2] at b2
      rw [List.length_append, hv.1, hv.2] at b1
      rw [hv.4] at b2
      rw [e] at hfew
      simp only [List.map_append, List.flatten_append, List.length_append] at hfew
      omega
  · intro reads1 reads2 he hn1 hn2 hopen hsmall
    rcases key with ⟨_, h⟩ | ⟨k, u1, u2, rest, tr1, tr2, sk, e, f1, f2, _, _, s1, s2, hv, _, h, _⟩
    · exfalso
      apply h
      subst he
      obtain ⟨m1, t1, r1, e1⟩ := C40_returns isOpen opens reads1 (sk0.drop 4) p.index_bytes (2 * p.n) (by omega) hopen
        (fun d hd => hsmall d (List.mem_append_left _ hd)) hn1
      obtain ⟨o, ho, hspec⟩ := C40_fills_buffer isOpen opens reads1 (sk0.drop 4) p.index_bytes (2 * p.n) (by omega)
      rw [e1] at ho
      simp only [Option.some.injEq] at ho
      obtain ⟨u1, hu1, _, _, l1, hm1⟩ := hspec m1 t1 r1 ho.symm
      have hl1 : m1.length = p.sk_bytes := by rw [hm1]; simp [l1]; omega
      have e2 : randombytes isOpen opens (reads1 ++ reads2) (sk0.drop 4) p.index_bytes (2 * p.n) =
          some (.returned m1 t1 (r1 ++ reads2)) := by
        unfold randombytes at e1 ⊢
        split at e1
        · rename_i hc
          rw [if_pos hc]
          exact randomLoop_append _ _ _ _ _ _ e1
        · cases e1
      obtain ⟨m2, t2, r2, e3⟩ := C40_returns true [] (r1 ++ reads2) m1 (p.index_bytes + 3 * p.n) p.n (by omega) (Or.inl rfl)
        (fun d hd => hsmall d (by
          rcases List.mem_append.1 hd with h | h
          · exact List.mem_append_left _ (by rw [hu1]; exact List.mem_append_right _ h)
          · exact List.mem_append_right _ h))
        (by simp only [List.map_append, List.flatten_append, List.length_append]; omega)
      exact ⟨m1, t1, _, m2, t2, r2, e2, e3⟩
    · exact ⟨_, _, _, h⟩

/-- Non-vacuity: XMSS OID 1 (n = 32) with a device that opens at the second attempt, delivers 50 bytes, an error, and 46
bytes: key generation returns; one byte less, and it waits. -/
example (P : Prims) : ∃ pk sk rest, keypairOs P .xmss (fun k => List.replicate k 0) false [false, true]
    [some (List.replicate 50 7), none, some (List.replicate 46 9)] (List.replicate 68 0) (List.replicate 136 0) 1 =
      some (.done 0 pk sk rest) :=
  (C54_waits_for_entropy (f := .xmss) (oid := 1) rfl _ (by decide +kernel) _ _ _ _ _ (by decide +kernel)
    (by decide +kernel)).2 (by decide +kernel) (by decide +kernel) (by decide +kernel)
example (P : Prims) : keypairOs P .xmss (fun k => List.replicate k 0) false [false, true]
    [some (List.replicate 50 7), none, some (List.replicate 45 9)] (List.replicate 68 0) (List.replicate 136 0) 1 =
      some .waiting :=
  (C54_waits_for_entropy (f := .xmss) (oid := 1) rfl _ (by decide +kernel) _ _ _ _ _ (by decide +kernel)
    (by decide +kernel)).1 (by decide +kernel)
/-- The same with the fast implementation (XMSSMT OID 1). -/
example (P : Prims) (p : Params) (hp : Family.xmssmt.parseFast 1 = some p) (hn : p.n = 32) : ∃ pk sk rest, keypairFastOs P .xmssmt false [false, true]
    [some (List.replicate 64 7), none, some (List.replicate 32 9)] (List.replicate (4 + p.pk_bytes) 0)
    (List.replicate (4 + p.sk_bytes) 0) 1 = some (.done 0 pk sk rest) :=
  (C54_waits_for_entropy_fast hp _ _ _ _ _ (List.length_replicate ..) (List.length_replicate ..)).2
    [some (List.replicate 64 7)] [none, some (List.replicate 32 9)] rfl (by rw [hn]; decide +kernel)
    (by rw [hn]; decide +kernel) (by decide +kernel) (by decide +kernel)
example : ∃ p, Family.xmssmt.parseFast 1 = some p ∧ p.n = 32 := ⟨_, rfl, rfl⟩

end Xmss
