import Verif.Props.History
/-
C80, simple implementation: writing into the index field of a secret key; copies of a key with ranges of indices.
-/
namespace Xmss

variable {P : Prims} {f : Family} {oid : Nat} {p : Params} {H : Bytes → Bytes}

/-! ### Specification -/

/-- The secret key `sk` with the number `i` written into its index field: big-endian, right behind the four bytes of the OID.
This is something the owner of a key does, not a function of the library. -/
def setIndex (p : Params) (i : Nat) (sk : Bytes) : Bytes :=
  sk.take 4 ++ Rfc.toByte i p.index_bytes ++ sk.drop (4 + p.index_bytes)

/-- The secret key buffer after a history that began with `sk`. -/
def bufAfter (sk : Bytes) (outs : List SignOut) : Bytes := (outs.getLast?.map (·.sk)).getD sk

/-- A share: the holder of a copy of the key sets its index to `start` and makes the calls `calls`. -/
structure Share where
  start : Nat
  calls : List Call

/-- The range of a share is used up by its calls: the indices `start, …, start + calls.length - 1`. -/
def Share.Disjoint (s t : Share) : Prop := s.start + s.calls.length ≤ t.start ∨ t.start + t.calls.length ≤ s.start

/-! ### Lemmas -/

theorem setIndex_sk (k : Key) (i j : Nat) : setIndex p i (k.sk p oid j) = k.sk p oid i := by
  have h4 : (Rfc.toByte oid 4).length = 4 := toByte_length _ _
  rw [setIndex, Key.sk]
  simp only [List.append_assoc]
  rw [List.take_left' h4, ← List.drop_drop, List.drop_left' h4, List.drop_left' (toByte_length _ _), Key.sk]
  simp

theorem stateAfter_from {k : Key} (a : Nat) : ∀ n, a + n ≤ 2 ^ p.full_height - 1 → stateAfter p (a, k) n = (a + n, k) := by
  intro n
  induction n with
  | zero => intro _; rfl
  | succ n ih =>
    intro hn
    rw [stateAfter, ih (by omega)]
    simp only [nextIdx, nextKey, if_pos (show a + n < 2 ^ p.full_height - 1 by omega)]
    rfl

/-- A history from any index, call by call. -/
theorem share_history (hp : f.parse oid = some p) (hH : coreHash P p.func p.n = some H) (k : Key) (hv : k.Valid p)
    (a : Nat) (cs : List Call) (hcs : Sized p cs) (hlen : a + cs.length ≤ 2 ^ p.full_height - 1) :
    ∃ outs : List SignOut, signAll P f (k.sk p oid a) cs = some outs ∧ outs.length = cs.length ∧
      bufAfter (k.sk p oid a) outs = k.sk p oid (a + cs.length) ∧
      ∀ (j : Nat) (c : Call), cs[j]? = some c → outs[j]? = some (α := SignOut)
        { ret := 0, sk := k.sk p oid (a + j + 1)
          sm := (suiteOf p H).sign k.skSeed k.skPrf k.root k.pubSeed (a + j) c.msg ++ c.msg
          smlen := p.sig_bytes + c.msg.length } := by
  obtain ⟨g, hskb, ho, _⟩ := Family.facts (P := P) hp
  have hfit := g.idx_fits
  have hpos : 0 < 2 ^ p.full_height := Nat.two_pow_pos _
  have hout : ∀ j c, cs[j]? = some c →
      (cs.mapIdx fun j c => outcome p H oid (stateAfter p (a, k) j) c)[j]? = some (α := SignOut)
        { ret := 0, sk := k.sk p oid (a + j + 1)
          sm := (suiteOf p H).sign k.skSeed k.skPrf k.root k.pubSeed (a + j) c.msg ++ c.msg
          smlen := p.sig_bytes + c.msg.length } := by
    intro j c hc
    have hjl := (List.getElem?_eq_some_iff.mp hc).1
    rw [List.getElem?_mapIdx, hc, Option.map_some, stateAfter_from _ _ (by omega), outcome]
    simp only [nextIdx, nextKey, if_pos (show a + j < 2 ^ p.full_height - 1 by omega), if_pos (show a + j < 2 ^ p.full_height by omega)]
  refine ⟨_, signAll_eq hp hH cs a k hv (by omega) hcs, by simp, ?_, hout⟩
  cases hc : cs.getLast? with
  | none =>
    rw [List.getLast?_eq_none_iff] at hc
    subst hc
    rfl
  | some c =>
    rw [List.getLast?_eq_getElem?] at hc
    have hjl := (List.getElem?_eq_some_iff.mp hc).1
    rw [bufAfter, List.getLast?_eq_getElem?, List.length_mapIdx, hout _ c hc]
    show k.sk p oid (a + (cs.length - 1) + 1) = _
    rw [show a + (cs.length - 1) + 1 = a + cs.length by omega]

/-! ### C80 -/

/-- **C80 (the index field is the state).**  After `n ≤ 2^h - 1` sign calls the secret key is the fresh key with `n` written into its
index field; and writing any `i` into the index field of a later key gives the key as it was after `i` calls. -/
theorem C80_index_field (hp : f.parse oid = some p) (pk0 sk0 : Bytes) (hpk : pk0.length = 4 + p.pk_bytes)
    (hsk : sk0.length = 4 + p.sk_bytes) (seed : Nat → Bytes) (hs : (seed p.n).length = 3 * p.n) :
    ∃ pk sk, f.keypair P pk0 sk0 oid seed = some (0, pk, sk) ∧
      ∀ cs, Sized p cs → cs.length ≤ 2 ^ p.full_height - 1 → ∃ outs, signAll P f sk cs = some outs ∧
        bufAfter sk outs = setIndex p cs.length sk ∧ ∀ i, setIndex p i (bufAfter sk outs) = setIndex p i sk := by
  obtain ⟨g, hskb, ho, H, hH⟩ := Family.facts (P := P) hp
  obtain ⟨k, hv, hh, _, hk⟩ := keypair_key hp hH pk0 sk0 hpk hsk seed hs
  refine ⟨_, _, hk, ?_⟩
  intro cs hcs hlen
  obtain ⟨outs, e, _, h1, _⟩ := share_history hp hH k hv 0 cs hcs (by omega)
  refine ⟨outs, e, ?_, ?_⟩
  · rw [h1, setIndex_sk, Nat.zero_add]
  · intro i; rw [h1, setIndex_sk, setIndex_sk]

/-- **C80 (shares).**  Any number of copies of a generated key are given to holders who set the index to the start of their range and
sign within it; the ranges do not overlap and stay below `2^h - 1`.  Then every call of every holder returns 0 and is accepted by
`open` under the common public key, carries the index start + number of the call, is byte for byte what a single signer
would have output as signature number start + j on that message, and no two signatures of all the holders carry the same index. -/
theorem C80_shares (hp : f.parse oid = some p) (pk0 sk0 : Bytes) (hpk : pk0.length = 4 + p.pk_bytes)
    (hsk : sk0.length = 4 + p.sk_bytes) (seed : Nat → Bytes) (hs : (seed p.n).length = 3 * p.n) :
    ∃ pk sk, f.keypair P pk0 sk0 oid seed = some (0, pk, sk) ∧
      ∀ shares : List Share, (∀ s ∈ shares, Sized p s.calls ∧ s.start + s.calls.length ≤ 2 ^ p.full_height - 1) →
        shares.Pairwise Share.Disjoint →
        ∃ outs : List (List SignOut), List.Forall₂ (fun s o => signAll P f (setIndex p s.start sk) s.calls = some o) shares outs ∧
          (∀ (a j : Nat) (s : Share) (c : Call), shares[a]? = some s → s.calls[j]? = some c →
            ∃ os o, outs[a]? = some os ∧ os[j]? = some o ∧ o.ret = 0 ∧ o.smlen = p.sig_bytes + c.msg.length ∧
              o.sm.take p.index_bytes = Rfc.toByte (s.start + j) p.index_bytes ∧
              (∀ (m : Bytes) (l0 : Nat), p.sig_bytes + c.msg.length < 2 ^ 64 → p.sig_bytes + c.msg.length ≤ m.length →
                ∃ r, f.signOpen P m l0 o.sm o.smlen pk = some r ∧ r.ret = 0 ∧ r.mlen = c.msg.length ∧ r.m.take r.mlen = c.msg) ∧
              ∀ (cs : List Call) (all : List SignOut) (c' : Call), Sized p cs → cs.length ≤ 2 ^ p.full_height - 1 →
                signAll P f sk cs = some all → cs[s.start + j]? = some c' → c'.msg = c.msg →
                ∃ o', all[s.start + j]? = some o' ∧ o'.sm = o.sm) ∧
          ∀ (a a' j j' : Nat) (os os' : List SignOut) (o o' : SignOut), outs[a]? = some os → os[j]? = some o →
            outs[a']? = some os' → os'[j']? = some o' → o.sm.take p.index_bytes = o'.sm.take p.index_bytes → a = a' ∧ j = j' := by
  obtain ⟨g, hskb, ho, H, hH⟩ := Family.facts (P := P) hp
  have hHl := Family.hash_length hp hH
  have hfit := g.idx_fits
  have hpos : 0 < 2 ^ p.full_height := Nat.two_pow_pos _
  obtain ⟨k, hv, hh, _, hk⟩ := keypair_key hp hH pk0 sk0 hpk hsk seed hs
  refine ⟨_, _, hk, ?_⟩
  intro shares hsh hdis
  have hex : ∀ s ∈ shares, ∃ outs : List SignOut, signAll P f (setIndex p s.start (k.sk p oid 0)) s.calls = some outs ∧ outs.length = s.calls.length ∧
      ∀ (j : Nat) (c : Call), s.calls[j]? = some c → outs[j]? = some (α := SignOut)
        { ret := 0, sk := k.sk p oid (s.start + j + 1)
          sm := (suiteOf p H).sign k.skSeed k.skPrf k.root k.pubSeed (s.start + j) c.msg ++ c.msg
          smlen := p.sig_bytes + c.msg.length } := by
    intro s hs
    obtain ⟨outs, e, h1, _, h2⟩ := share_history hp hH k hv s.start s.calls (hsh s hs).1 (hsh s hs).2
    exact ⟨outs, by rw [setIndex_sk]; exact e, h1, h2⟩
  let F : Share → List SignOut := fun s => (signAll P f (setIndex p s.start (k.sk p oid 0)) s.calls).getD []
  have hF : ∀ s ∈ shares, signAll P f (setIndex p s.start (k.sk p oid 0)) s.calls = some (F s) ∧ (F s).length = s.calls.length ∧
      ∀ (j : Nat) (c : Call), s.calls[j]? = some c → (F s)[j]? = some (α := SignOut)
        { ret := 0, sk := k.sk p oid (s.start + j + 1)
          sm := (suiteOf p H).sign k.skSeed k.skPrf k.root k.pubSeed (s.start + j) c.msg ++ c.msg
          smlen := p.sig_bytes + c.msg.length } := by
    intro s hs
    obtain ⟨outs, e, h⟩ := hex s hs
    have : F s = outs := by simp only [F, e, Option.getD_some]
    rw [this]
    exact ⟨e, h⟩
  have hidx : ∀ i m, ((suiteOf p H).sign k.skSeed k.skPrf k.root k.pubSeed i m ++ m).take p.index_bytes = Rfc.toByte i p.index_bytes := by
    intro i m
    rw [Rfc.Suite.sign]
    simp only [List.append_assoc]
    exact List.take_left' (toByte_length _ _)
  refine ⟨shares.map F, ?_, ?_, ?_⟩
  · rw [List.forall₂_map_right_iff, List.forall₂_same]
    exact fun s hs => (hF s hs).1
  · intro a j s c ha hc
    have hmem := List.mem_of_getElem? ha
    obtain ⟨_, h1, h2⟩ := hF s hmem
    have hjl := (List.getElem?_eq_some_iff.mp hc).1
    have hle := (hsh s hmem).2
    have hi : s.start + j < 2 ^ p.full_height - 1 := by omega
    have hsl := sign_length g hHl k.skSeed k.skPrf k.root k.pubSeed (s.start + j) c.msg
    refine ⟨F s, _, by rw [List.getElem?_map, ha]; rfl, h2 j c hc, rfl, rfl, hidx _ _, ?_, ?_⟩
    · intro m l0 h64 hm
      obtain ⟨r, h1, h2, h3⟩ := C23_open_is_rfc hp hH k hv.root hv.pubSeed _ c.msg m l0 hsl h64 hm
      obtain ⟨r', h1', h4⟩ := C24_open_output (P := P) hp k hv.root hv.pubSeed _ c.msg m l0 hsl h64 hm
      rw [h1] at h1'
      cases h1'
      have hver : r.ret = 0 := by
        rw [h3, Rfc.Suite.verify, verifyRoot_sign g hHl _ _ _ _ _ _ (by omega), Nat.div_eq_of_lt (by omega), hh]
        rfl
      refine ⟨r, h1, hver, ?_⟩
      rcases h4 with ⟨_, h5, h6⟩ | ⟨h5, _⟩
      · exact ⟨h5, by rw [h5]; exact h6⟩
      · rw [hver] at h5; cases h5
    · intro cs all c' hcs hlen hall hc' hm
      obtain ⟨all', e, _, _, h⟩ := share_history hp hH k hv 0 cs hcs (by omega)
      rw [hall] at e
      cases e
      refine ⟨_, h _ c' hc', ?_⟩
      simp only [Nat.zero_add, hm]
  · intro a a' j j' os os' o o' h1 h2 h3 h4 he
    rw [List.getElem?_map] at h1 h3
    obtain ⟨s, hs, rfl⟩ := Option.map_eq_some_iff.mp h1
    obtain ⟨t, ht, rfl⟩ := Option.map_eq_some_iff.mp h3
    have ms := List.mem_of_getElem? hs
    have mt := List.mem_of_getElem? ht
    obtain ⟨_, l1, p1⟩ := hF s ms
    obtain ⟨_, l2, p2⟩ := hF t mt
    have j1 : j < s.calls.length := by rw [← l1]; exact (List.getElem?_eq_some_iff.mp h2).1
    have j2 : j' < t.calls.length := by rw [← l2]; exact (List.getElem?_eq_some_iff.mp h4).1
    rw [p1 j _ (List.getElem?_eq_getElem j1), Option.some.injEq] at h2
    rw [p2 j' _ (List.getElem?_eq_getElem j2), Option.some.injEq] at h4
    subst h2 h4
    simp only [hidx] at he
    have b1 := (hsh s ms).2
    have b2 := (hsh t mt).2
    have hee : s.start + j = t.start + j' := by
      have := congrArg Rfc.toNat he
      rw [toNat_toByte, toNat_toByte, Nat.mod_eq_of_lt (by omega), Nat.mod_eq_of_lt (by omega)] at this
      exact this
    have haa : a = a' := by
      by_contra hne
      obtain ⟨la, rfl⟩ := List.getElem?_eq_some_iff.mp hs
      obtain ⟨la', rfl⟩ := List.getElem?_eq_some_iff.mp ht
      rcases Nat.lt_or_gt_of_ne hne with h | h
      · have := List.pairwise_iff_getElem.mp hdis a a' la la' h
        unfold Share.Disjoint at this
        omega
      · have := List.pairwise_iff_getElem.mp hdis a' a la' la h
        unfold Share.Disjoint at this
        omega
    subst haa
    rw [hs] at ht
    cases ht
    exact ⟨rfl, by omega⟩

/-- **C80 (overlapping ranges).**  Where two ranges overlap, both holders sign with the same one-time key: equal index and equal
randomizer on whatever two messages (and then C63 applies). -/
theorem C80_overlap (hp : f.parse oid = some p) (pk0 sk0 : Bytes) (hpk : pk0.length = 4 + p.pk_bytes)
    (hsk : sk0.length = 4 + p.sk_bytes) (seed : Nat → Bytes) (hs : (seed p.n).length = 3 * p.n) :
    ∃ pk sk, f.keypair P pk0 sk0 oid seed = some (0, pk, sk) ∧
      ∀ (s t : Share) (i : Nat), Sized p s.calls → Sized p t.calls → s.start ≤ i → i < s.start + s.calls.length → t.start ≤ i →
        i < t.start + t.calls.length → s.start + s.calls.length ≤ 2 ^ p.full_height - 1 →
        t.start + t.calls.length ≤ 2 ^ p.full_height - 1 →
        ∃ os ot o o', signAll P f (setIndex p s.start sk) s.calls = some os ∧ signAll P f (setIndex p t.start sk) t.calls = some ot ∧
          os[i - s.start]? = some o ∧ ot[i - t.start]? = some o' ∧ o.ret = 0 ∧ o'.ret = 0 ∧
          o.sm.take (p.index_bytes + p.n) = o'.sm.take (p.index_bytes + p.n) ∧
          o.sm.take p.index_bytes = Rfc.toByte i p.index_bytes := by
  obtain ⟨g, hskb, ho, H, hH⟩ := Family.facts (P := P) hp
  have hHl := Family.hash_length hp hH
  obtain ⟨k, hv, hh, _, hk⟩ := keypair_key hp hH pk0 sk0 hpk hsk seed hs
  refine ⟨_, _, hk, ?_⟩
  intro s t i hs ht s1 s2 t1 t2 hs3 ht3
  obtain ⟨os, e, _, _, h⟩ := share_history hp hH k hv s.start s.calls hs hs3
  obtain ⟨ot, e', _, _, h'⟩ := share_history hp hH k hv t.start t.calls ht ht3
  have o1 := h (i - s.start) _ (List.getElem?_eq_getElem (show i - s.start < s.calls.length by omega))
  have o2 := h' (i - t.start) _ (List.getElem?_eq_getElem (show i - t.start < t.calls.length by omega))
  rw [show s.start + (i - s.start) = i by omega] at o1
  rw [show t.start + (i - t.start) = i by omega] at o2
  have ht : ∀ m : Bytes, ((suiteOf p H).sign k.skSeed k.skPrf k.root k.pubSeed i m ++ m).take (p.index_bytes + p.n) =
      Rfc.toByte i p.index_bytes ++ (suiteOf p H).PRF k.skPrf (Rfc.toByte i 32) := by
    intro m
    rw [Rfc.Suite.sign, List.append_assoc _ _ m]
    refine List.take_left' ?_
    rw [List.length_append, toByte_length]
    exact congrArg _ (hHl _)
  refine ⟨os, ot, _, _, by rw [setIndex_sk]; exact e, by rw [setIndex_sk]; exact e', o1, o2, rfl, rfl, ?_, ?_⟩
  · simp only [ht]
  · have := congrArg (List.take p.index_bytes) (ht (s.calls[i - s.start]'(by omega)).msg)
    rw [List.take_take, Nat.min_eq_left (by omega), List.take_left' (toByte_length _ _)] at this
    exact this

/-- **C80 (no forward security).**  Whoever gets hold of the secret key after any number of calls can repeat every signature made
before: set the index back to `j` and sign the same message. -/
theorem C80_no_forward_security (hp : f.parse oid = some p) (pk0 sk0 : Bytes) (hpk : pk0.length = 4 + p.pk_bytes)
    (hsk : sk0.length = 4 + p.sk_bytes) (seed : Nat → Bytes) (hs : (seed p.n).length = 3 * p.n) :
    ∃ pk sk, f.keypair P pk0 sk0 oid seed = some (0, pk, sk) ∧
      ∀ cs, Sized p cs → cs.length ≤ 2 ^ p.full_height - 1 → ∃ outs, signAll P f sk cs = some outs ∧
        ∀ (j : Nat) (c : Call) (o : SignOut), cs[j]? = some c → outs[j]? = some o →
          ∀ (sm : Bytes) (l0 : Nat), sm.length = p.sig_bytes + c.msg.length →
            ∃ o', f.sign P (setIndex p j (bufAfter sk outs)) sm l0 c.msg = some o' ∧ o'.ret = 0 ∧ o'.sm = o.sm := by
  obtain ⟨g, hskb, ho, H, hH⟩ := Family.facts (P := P) hp
  obtain ⟨k, hv, hh, _, hk⟩ := keypair_key hp hH pk0 sk0 hpk hsk seed hs
  refine ⟨_, _, hk, ?_⟩
  intro cs hcs hlen
  obtain ⟨outs, e, _, h1, h2⟩ := share_history hp hH k hv 0 cs hcs (by omega)
  refine ⟨outs, e, ?_⟩
  intro j c o hc ho sm l0 hsm
  have hjl := (List.getElem?_eq_some_iff.mp hc).1
  rw [h2 j c hc] at ho
  cases ho
  have hj : j < 2 ^ p.full_height - 1 := by omega
  refine ⟨_, by rw [h1, setIndex_sk]; exact C23_sign_is_rfc hp hH k hv j hj sm l0 c.msg hsm, rfl, ?_⟩
  simp only [Nat.zero_add]

/-- The hypotheses are met: XMSS-SHA2_10_256, calls with buffers of the right size, and three copies with ranges 0, 1; 2; 1022. -/
example : ∃ p : Params, Family.xmss.parse 1 = some p ∧
    ∀ c : Call, c.sm.length = p.sig_bytes + c.msg.length →
    let shares : List Share := [⟨0, [c, c]⟩, ⟨2, [c]⟩, ⟨1022, [c]⟩]
    (∀ s ∈ shares, Sized p s.calls ∧ s.start + s.calls.length ≤ 2 ^ p.full_height - 1) ∧ shares.Pairwise Share.Disjoint := by
  refine ⟨_, rfl, ?_⟩
  intro c hc
  refine ⟨?_, ?_⟩
  · intro s hs
    simp only [List.mem_cons, List.not_mem_nil, or_false] at hs
    rcases hs with rfl | rfl | rfl <;>
      exact ⟨by intro d hd; simp only [List.mem_cons, List.not_mem_nil, or_false, or_self] at hd; subst hd; exact hc, Nat.le_of_ble_eq_true rfl⟩
  · simp [Share.Disjoint]

end Xmss
