import Verif.Props.WrongFamily
import Verif.Props.CrashStale
/-
C67: one key used by programs linked with the simple and with the fast implementation.
-/
namespace Xmss

variable {P : Prims} {H : Bytes → Bytes} {p pf : Params} {f : Family} {oid : Nat}

/-! ### Vocabulary -/

/-- Which implementation a program is linked with: xmss_core.c or xmss_core_fast.c. -/
inductive Build | simple | fast
deriving DecidableEq, Repr

/-- A sign call made by a program of the given build. -/
def Family.signBy (P : Prims) (f : Family) (b : Build) (sk sm : Bytes) (l0 : Nat) (m : Bytes) : Option SignOut :=
  match b with
  | .simple => f.sign P sk sm l0 m
  | .fast => (f.signFast P sk sm l0 m).map (·.toSignOut)

/-- A history of sign calls on one secret key, each made by a program of either build. -/
def signAllBy (P : Prims) (f : Family) : Bytes → List (Build × Call) → Option (List SignOut)
  | _, [] => some []
  | sk, c :: cs => do
    let o ← f.signBy P c.1 sk c.2.sm c.2.smlen0 c.2.msg
    let os ← signAllBy P f o.sk cs
    some (o :: os)

/-- What the call with the last index writes in front of the message in the simple build: the key has been deleted before. -/
def simpleLastSig (p : Params) (H : Bytes → Bytes) (m : Bytes) : Bytes :=
  let z : Bytes := List.replicate p.n 0
  List.replicate p.index_bytes 0xFF ++ ((suiteOf p H).sign z z z z (2 ^ p.full_height - 1) m).drop p.index_bytes

/-! ### One call -/

theorem sign_sigHead (g : p.Good) (k : Key) (idx : Nat) (m : Bytes) : ∃ rest,
    (suiteOf p H).sign k.skSeed k.skPrf k.root k.pubSeed idx m = sigHead p H k idx m ++ rest := by
  obtain ⟨d, hd⟩ : ∃ d, p.d = d + 1 := ⟨p.d - 1, (Nat.sub_add_cancel g.d_pos).symm⟩
  rw [Rfc.Suite.sign, show (suiteOf p H).d = d + 1 from hd, Rfc.Suite.signLayers, sigHead]
  simp only [g.hp_eq H]
  exact ⟨_, by
    simp only [← List.append_assoc]
    rw [List.append_assoc (_ ++ _ ++ _)]
    rfl⟩

/-- What a call on a key with index `idx` and an arbitrary traversal state does, if it is defined. -/
structure PostBy (p : Params) (H : Bytes → Bytes) (oid : Nat) (k : Key) (idx : Nat) (b : Build) (c : Call) (o : SignOut) : Prop where
  ok : idx + 1 < 2 ^ p.full_height → o.ret = 0 ∧ o.smlen = p.sig_bytes + c.msg.length ∧ sigHead p H k idx c.msg <+: o.sm ∧
    (b = .simple → o.sm = (suiteOf p H).sign k.skSeed k.skPrf k.root k.pubSeed idx c.msg ++ c.msg ++
      c.sm.drop (p.sig_bytes + c.msg.length)) ∧
    ∃ ext', p.index_bytes + 4 * p.n + ext'.length = fastSkBytes p ∧ o.sk = k.damaged p oid (idx + 1) ext'
  last : idx + 1 = 2 ^ p.full_height → o.ret = 0 ∧
    (match b with | .simple => simpleLastSig p H c.msg | .fast => fastLastSig p H c.msg) <+: o.sm ∧
    ∃ ext', p.index_bytes + 4 * p.n + ext'.length = fastSkBytes p ∧ o.sk = (Key.zero p).damaged p oid (idx + 1) ext'
  over : 2 ^ p.full_height ≤ idx → o.ret = -2 ∧
    ∃ ext', p.index_bytes + 4 * p.n + ext'.length = fastSkBytes p ∧
      o.sk = (Key.zero p).damaged p oid (256 ^ p.index_bytes - 1) ext'

theorem fastSkBytes_eq (p : Params) : fastSkBytes p = p.index_bytes + 4 * p.n +
    ((2 * p.d - 1) * bdsStateBytes p + (p.d - 1) * p.wots_sig_bytes) := by
  rw [fastSkBytes]; omega

theorem signBy_call (hp : f.parse oid = some p) (hH : coreHash P p.func p.n = some H) (k : Key) (hk : k.Valid p)
    (idx : Nat) (hidx : idx < 256 ^ p.index_bytes) (ext : Bytes) (hext : p.index_bytes + 4 * p.n + ext.length = fastSkBytes p)
    (b : Build) (c : Call) (hsm : p.sig_bytes + c.msg.length ≤ c.sm.length) (o : SignOut)
    (h : f.signBy P b (k.damaged p oid idx ext) c.sm c.smlen0 c.msg = some o) : PostBy p H oid k idx b c o := by
  obtain ⟨pf, hpf, rfl⟩ := parse_both hp
  obtain ⟨g, hskb, ho, _⟩ := Family.facts (P := P) hp
  have hHl := Family.hash_length hp hH
  have hpos : 0 < 2 ^ p.full_height := by positivity
  cases b with
  | fast =>
    rw [Family.signBy] at h
    obtain ⟨o', h1, rfl⟩ := Option.map_eq_some_iff.mp h
    have post := C56_damaged_state (P := P) (H := H) hpf hH k ⟨hk.1, hk.2, hk.3, hk.4⟩ idx hidx ext hext c hsm o' h1
    refine ⟨fun hi => ?_, fun hi => ?_, fun hi => ?_⟩
    · obtain ⟨p1, p2, ⟨rest, _, p3⟩, ext', e1, e2⟩ := post.ok hi
      refine ⟨p1, p2, ?_, fun h => (by cases h), ext', e1, e2⟩
      rw [p3, List.append_assoc, List.append_assoc]
      exact List.prefix_append _ _
    · obtain ⟨p1, p2, p3, ext', e1, e2⟩ := post.last hi
      refine ⟨p1, ?_, ext', e1, e2⟩
      rw [p3, List.append_assoc]
      exact List.prefix_append _ _
    · obtain ⟨p1, p2, p3, e2⟩ := post.over hi
      have := fastSkBytes_eq p
      rw [deleted_eq (by show p.index_bytes + 4 * p.n ≤ fastSkBytes p; omega)] at e2
      refine ⟨p1, _, ?_, e2⟩
      rw [List.length_replicate]
      show p.index_bytes + 4 * p.n + (fastSkBytes p - p.index_bytes - 4 * p.n) = fastSkBytes p
      omega
  | simple =>
    rw [Family.signBy] at h
    have hc := sign_call (P := P) hp hH k hk idx hidx c.sm c.smlen0 c.msg hsm
    rw [Key.sk] at hc
    have hc := sign_frame hp (by omega) ext hc
    have e : Rfc.toByte oid 4 ++ (Rfc.toByte idx p.index_bytes ++ k.skSeed ++ k.skPrf ++ k.root ++ k.pubSeed) ++ ext =
        k.damaged p oid idx ext := by simp [Key.damaged, Key.mat]
    have e' : ∀ (k : Key) (j : Nat), k.sk p oid j ++ ext = k.damaged p oid j ext := by
      intro k j; simp [Key.damaged, Key.mat, Key.sk]
    rw [e, h] at hc
    obtain rfl := Option.some.inj hc
    refine ⟨fun hi => ?_, fun hi => ?_, fun hi => ?_⟩
    · have c1 : idx < 2 ^ p.full_height - 1 := by omega
      have c2 : idx < 2 ^ p.full_height := by omega
      simp only [if_pos c1, if_pos c2, nextKey, nextIdx, e']
      refine ⟨trivial, trivial, ?_, fun _ => trivial, ext, hext, rfl⟩
      obtain ⟨rest, hr⟩ := sign_sigHead (H := H) g k idx c.msg
      rw [hr, List.append_assoc, List.append_assoc]
      exact List.prefix_append _ _
    · have c1 : ¬ idx < 2 ^ p.full_height - 1 := by omega
      have c2 : idx < 2 ^ p.full_height := by omega
      have c3 : idx = 2 ^ p.full_height - 1 := by omega
      simp only [if_neg c1, if_pos c2, nextKey, nextIdx, if_pos c3, e']
      refine ⟨trivial, ?_, ext, hext, ?_⟩
      · rw [simpleLastSig, ← c3, List.append_assoc (_ ++ _)]
        exact List.prefix_append _ _
      · rw [Key.damaged, Key.damaged, toByte_mod, hi]
    · have c1 : ¬ idx < 2 ^ p.full_height - 1 := by omega
      have c2 : ¬ idx < 2 ^ p.full_height := by omega
      have c3 : ¬ idx = 2 ^ p.full_height - 1 := by omega
      simp only [if_neg c1, if_neg c2, nextKey, nextIdx, if_neg c3, e']
      exact ⟨trivial, ext, hext, rfl⟩

/-! ### Histories -/

theorem signBy_trace (hp : f.parse oid = some p) (hH : coreHash P p.func p.n = some H) (k : Key) :
    ∀ (cs : List (Build × Call)) (n : Nat) (k' : Key) (x : Nat) (ext : Bytes) (outs : List SignOut), k'.Valid p →
    x < 256 ^ p.index_bytes → p.index_bytes + 4 * p.n + ext.length = fastSkBytes p →
    (n < 2 ^ p.full_height → k' = k ∧ x = n) → (2 ^ p.full_height ≤ n → 2 ^ p.full_height ≤ x) →
    (∀ c ∈ cs, p.sig_bytes + c.2.msg.length ≤ c.2.sm.length) →
    (n + cs.length ≤ 2 ^ p.full_height ∨ 2 ^ p.full_height < 256 ^ p.index_bytes) →
    signAllBy P f (k'.damaged p oid x ext) cs = some outs →
    outs.length = cs.length ∧ ∀ j c o, cs[j]? = some c → outs[j]? = some o →
      ∃ k'' x', PostBy p H oid k'' x' c.1 c.2 o ∧ (n + j < 2 ^ p.full_height → k'' = k ∧ x' = n + j) ∧
        (2 ^ p.full_height ≤ n + j → 2 ^ p.full_height ≤ x') := by
  obtain ⟨g, hskb, ho, _⟩ := Family.facts (P := P) hp
  have hpos : 0 < 2 ^ p.full_height := Nat.two_pow_pos _
  intro cs
  induction cs with
  | nil => intro n k' x ext outs _ _ _ _ _ _ _ h; cases h; exact ⟨rfl, fun j c o h => by simp at h⟩
  | cons c cs ih =>
    intro n k' x ext outs hk' hx hext h1 h2 hcs hfit h
    rw [signAllBy] at h
    obtain ⟨o, ho, h⟩ := Option.bind_eq_some_iff.mp h
    obtain ⟨os, hos, h⟩ := Option.bind_eq_some_iff.mp h
    obtain rfl := Option.some.inj h
    have post := signBy_call hp hH k' hk' x hx ext hext c.1 c.2 (hcs c (List.mem_cons_self ..)) o ho
    rw [List.length_cons] at hfit
    have key : ∃ k1 x1 ext1, k1.Valid p ∧ x1 < 256 ^ p.index_bytes ∧ p.index_bytes + 4 * p.n + ext1.length = fastSkBytes p ∧
        (n + 1 < 2 ^ p.full_height → k1 = k ∧ x1 = n + 1) ∧ (2 ^ p.full_height ≤ n + 1 → cs = [] ∨ 2 ^ p.full_height ≤ x1) ∧
        (o.sk = k1.damaged p oid x1 ext1) := by
      rcases Nat.lt_trichotomy (x + 1) (2 ^ p.full_height) with hl | hl | hl
      · obtain ⟨_, _, _, _, ext', e1, e2⟩ := post.ok hl
        have hn : n < 2 ^ p.full_height := by
          by_contra hc
          have := h2 (by omega); omega
        obtain ⟨rfl, rfl⟩ := h1 hn
        have := g.idx_fits
        exact ⟨k', x + 1, ext', hk', by omega, e1, fun _ => ⟨rfl, rfl⟩, fun _ => by omega, e2⟩
      · obtain ⟨_, _, ext', e1, e2⟩ := post.last hl
        have hn : n < 2 ^ p.full_height := by
          by_contra hc
          have := h2 (by omega); omega
        obtain ⟨rfl, rfl⟩ := h1 hn
        rcases hfit with hf | hf
        · obtain rfl : cs = [] := List.eq_nil_of_length_eq_zero (by omega)
          refine ⟨Key.zero p, (x + 1) % 256 ^ p.index_bytes, ext', zero_valid p, Nat.mod_lt _ (by positivity), e1,
            fun _ => by omega, fun _ => Or.inl rfl, ?_⟩
          rw [e2, Key.damaged, Key.damaged, toByte_mod]
        · exact ⟨Key.zero p, x + 1, ext', zero_valid p, by omega, e1, fun _ => by omega, fun _ => Or.inr (by omega), e2⟩
      · obtain ⟨_, ext', e1, e2⟩ := post.over (by omega)
        refine ⟨Key.zero p, 256 ^ p.index_bytes - 1, ext', zero_valid p, by omega, e1, ?_, fun _ => Or.inr (by omega), e2⟩
        intro hn
        obtain ⟨_, rfl⟩ := h1 (by omega)
        omega
    obtain ⟨k1, x1, ext1, g1, g2, g3, g4, g5, g6⟩ := key
    rw [g6] at hos
    have hrest : os.length = cs.length ∧ ∀ j c o, cs[j]? = some c → os[j]? = some o →
        ∃ k'' x', PostBy p H oid k'' x' c.1 c.2 o ∧ (n + 1 + j < 2 ^ p.full_height → k'' = k ∧ x' = n + 1 + j) ∧
          (2 ^ p.full_height ≤ n + 1 + j → 2 ^ p.full_height ≤ x') := by
      rcases List.eq_nil_or_concat cs with rfl | hne
      · cases hos
        exact ⟨rfl, fun j c o h => by simp at h⟩
      · have hcs' : cs ≠ [] := by obtain ⟨l, b, rfl⟩ := hne; simp
        exact ih (n + 1) k1 x1 ext1 os g1 g2 g3 g4 (fun hh => (g5 hh).resolve_left hcs')
          (fun c' hc' => hcs c' (List.mem_cons_of_mem _ hc')) (hfit.imp (by omega) id) hos
    refine ⟨by simp [hrest.1], ?_⟩
    intro j c' o' hc ho'
    cases j with
    | zero =>
      simp only [List.getElem?_cons_zero, Option.some.injEq] at hc ho'
      subst hc ho'
      exact ⟨k', x, post, h1, h2⟩
    | succ j =>
      rw [List.getElem?_cons_succ] at hc ho'
      obtain ⟨k2, x2, a, b, c⟩ := hrest.2 j c' o' hc ho'
      refine ⟨k2, x2, a, ?_, ?_⟩
      · rw [show n + (j + 1) = n + 1 + j by omega]; exact b
      · rw [show n + (j + 1) = n + 1 + j by omega]; exact c

/-- **C67 (indices).**  A key of the fast build (OID, index, the four values, and any bytes as traversal state) is used by
programs of both builds in any order.  If no call is undefined behaviour, call number `j` carries the index `idx + j` and the
one-time signature of this index as long as `idx + j < 2^h - 1`, and if it was made by the simple build it is the complete RFC
signature; the call with the last index gives bytes that do not depend on the key; all later calls are refused.  So no index is
used twice.  (At height 40 the index bytes wrap around after the last index, so the history must end there.) -/
theorem C67_mixed_indices (hp : f.parse oid = some p) (hH : coreHash P p.func p.n = some H) (k : Key) (hk : k.Valid p)
    (idx : Nat) (hidx : idx < 2 ^ p.full_height) (ext : Bytes) (hext : p.index_bytes + 4 * p.n + ext.length = fastSkBytes p)
    (cs : List (Build × Call)) (hcs : ∀ c ∈ cs, p.sig_bytes + c.2.msg.length ≤ c.2.sm.length)
    (hfit : idx + cs.length ≤ 2 ^ p.full_height ∨ 2 ^ p.full_height < 256 ^ p.index_bytes) (outs : List SignOut)
    (h : signAllBy P f (k.sk p oid idx ++ ext) cs = some outs) :
    outs.length = cs.length ∧ ∀ j b c o, cs[j]? = some (b, c) → outs[j]? = some o →
      (idx + j + 1 < 2 ^ p.full_height → o.ret = 0 ∧ o.smlen = p.sig_bytes + c.msg.length ∧ sigHead p H k (idx + j) c.msg <+: o.sm ∧
        (b = .simple → o.sm = (suiteOf p H).sign k.skSeed k.skPrf k.root k.pubSeed (idx + j) c.msg ++ c.msg ++
          c.sm.drop (p.sig_bytes + c.msg.length)) ∧
        ∃ ext', o.sk = k.sk p oid (idx + j + 1) ++ ext') ∧
      (idx + j + 1 = 2 ^ p.full_height → o.ret = 0 ∧
        (match b with | .simple => simpleLastSig p H c.msg | .fast => fastLastSig p H c.msg) <+: o.sm) ∧
      (2 ^ p.full_height ≤ idx + j → o.ret = -2) := by
  obtain ⟨g, _, _, _⟩ := Family.facts (P := P) hp
  have hfits := g.idx_fits
  have e' : ∀ (k : Key) (j : Nat) (ext : Bytes), k.damaged p oid j ext = k.sk p oid j ++ ext := by
    intro k j ext; simp [Key.damaged, Key.mat, Key.sk]
  rw [← e'] at h
  obtain ⟨hl, hall⟩ := signBy_trace hp hH k cs idx k idx ext outs hk (by omega) hext (fun _ => ⟨rfl, rfl⟩) (fun h => by omega) hcs hfit h
  refine ⟨hl, fun j b c o hc ho' => ?_⟩
  obtain ⟨k', x, post, a, b⟩ := hall j (b, c) o hc ho'
  refine ⟨fun hi => ?_, fun hi => ?_, fun hi => ?_⟩
  · obtain ⟨rfl, rfl⟩ := a (by omega)
    obtain ⟨p1, p2, p3, p4, ext', _, p5⟩ := post.ok hi
    exact ⟨p1, p2, p3, p4, ext', by rw [p5, e']⟩
  · obtain ⟨rfl, rfl⟩ := a (by omega)
    obtain ⟨p1, p2, _⟩ := post.last hi
    exact ⟨p1, p2⟩
  · exact (post.over (b hi)).1

/-- **C67 (what holds).**  Whatever calls of either build a key of the fast build has seen before, the signature of every call of the
simple build below the last index is accepted by `open`. -/
theorem C67_simple_verifies_partial (hp : f.parse oid = some p) (hH : coreHash P p.func p.n = some H) (k : Key) (hk : k.Valid p)
    (hh : k.Honest (suiteOf p H))
    (idx : Nat) (hidx : idx < 2 ^ p.full_height) (ext : Bytes) (hext : p.index_bytes + 4 * p.n + ext.length = fastSkBytes p)
    (cs : List (Build × Call)) (hcs : ∀ c ∈ cs, p.sig_bytes + c.2.msg.length ≤ c.2.sm.length)
    (hfit : idx + cs.length ≤ 2 ^ p.full_height ∨ 2 ^ p.full_height < 256 ^ p.index_bytes) (outs : List SignOut)
    (h : signAllBy P f (k.sk p oid idx ++ ext) cs = some outs) (j : Nat) (c : Call) (o : SignOut) (hc : cs[j]? = some (.simple, c))
    (ho : outs[j]? = some o) (hj : idx + j + 1 < 2 ^ p.full_height) (mbuf : Bytes) (l0 : Nat) (h64 : p.sig_bytes + c.msg.length < 2 ^ 64)
    (hm : p.sig_bytes + c.msg.length ≤ mbuf.length) :
    ∃ r, f.signOpen P mbuf l0 (o.sm.take o.smlen) o.smlen (k.pk oid) = some r ∧ r.ret = 0 := by
  obtain ⟨g, _, _, _⟩ := Family.facts (P := P) hp
  have hHl := Family.hash_length hp hH
  obtain ⟨_, hsm, _, hs, _⟩ := ((C67_mixed_indices hp hH k hk idx hidx ext hext cs hcs hfit outs h).2 j _ c o hc ho).1 hj
  have hsl := sign_length g hHl k.skSeed k.skPrf k.root k.pubSeed (idx + j) c.msg
  obtain ⟨r, e, _, h⟩ := C23_open_is_rfc (P := P) hp hH k hk.root hk.pubSeed _ c.msg mbuf l0 hsl h64 hm
  refine ⟨r, ?_, ?_⟩
  · rw [← e, hsm, hs rfl]
    congr 1
    exact List.take_left' (by rw [List.length_append, hsl])
  · rw [h, Rfc.Suite.verify, verifyRoot_sign g hHl _ _ _ _ _ _ (by have := g.idx_fits; omega), Nat.div_eq_of_lt (by omega)]
    exact hh.symm

theorem deserializeStates_short (g : p.Good) (sk : Bytes) (hsk : sk.length ≤ p.index_bytes + 4 * p.n) :
    deserializeStates p sk = none := by
  have hd := g.d_pos
  have hn := g.n_pos
  obtain ⟨j, hj⟩ : ∃ j, 2 * p.d - 1 = j + 1 := ⟨2 * p.d - 2, by omega⟩
  rw [deserializeStates, hj, readStates, readState, rd, if_neg]
  · rfl
  · have : p.n ≤ (p.tree_height + 1) * p.n := Nat.le_mul_of_pos_left _ (by omega)
    omega

/-- **C67 (undefined).**  The fast build reads a key of the simple build behind its end. -/
theorem C67_simple_key_too_short (hp : f.parse oid = some p) (k : Key) (hk : k.Valid p) (idx : Nat) (sm : Bytes) (l0 : Nat) (m : Bytes) :
    f.signBy P .fast (k.sk p oid idx) sm l0 m = none := by
  obtain ⟨pf, hpf, rfl⟩ := parse_both hp
  obtain ⟨g, _, ho, _⟩ := Family.facts (P := P) hp
  obtain ⟨g', _, _, _⟩ := parseFast_good hpf
  have t1 : ∀ x : Bytes, (Rfc.toByte oid 4 ++ x).drop oidLen = x := fun x => List.drop_left' (toByte_length _ _)
  have hd : deserializeStates { p with sk_bytes := fastSkBytes p } (Rfc.toByte idx p.index_bytes ++ k.skSeed ++ k.skPrf ++ k.root ++ k.pubSeed) = none := by
    apply deserializeStates_short g'
    simp only [List.length_append, toByte_length, hk.skSeed, hk.skPrf, hk.root, hk.pubSeed]
    omega
  rw [Family.signBy, Key.sk]
  cases f with
  | xmss =>
    have : parseXmssFast oid = some { p with sk_bytes := fastSkBytes p } := hpf
    simp only [Family.signFast, xmssSignFast, apiSignFast, readOid_toByte (show oid < 2 ^ 31 by omega), this, t1, Option.bind_eq_bind, Option.bind_some,
      fastXmssSign, hd, Option.bind_none, ite_self, Option.bind_fun_none, Option.map_none]
  | xmssmt =>
    have : parseXmssmtFast oid = some { p with sk_bytes := fastSkBytes p } := hpf
    simp only [Family.signFast, xmssmtSignFast, apiSignFast, readOid_toByte (show oid < 2 ^ 31 by omega), this, t1, Option.bind_eq_bind, Option.bind_some,
      fastXmssmtSign, hd, Option.bind_none, ite_self, Option.bind_fun_none, Option.map_none]

theorem signAllBy_append : ∀ (cs ds : List (Build × Call)) (sk : Bytes) (os os' : List SignOut), signAllBy P f sk cs = some os →
    signAllBy P f ((os.getLast?.map (·.sk)).getD sk) ds = some os' → signAllBy P f sk (cs ++ ds) = some (os ++ os') := by
  intro cs
  induction cs with
  | nil => intro ds sk os os' h h'; cases h; simpa using h'
  | cons c cs ih =>
    intro ds sk os os' h h'
    rw [signAllBy] at h
    obtain ⟨o, ho, h⟩ := Option.bind_eq_some_iff.mp h
    obtain ⟨os2, hos, h⟩ := Option.bind_eq_some_iff.mp h
    obtain rfl := Option.some.inj h
    rw [List.cons_append, signAllBy, ho]
    simp only [Option.bind_eq_bind, Option.bind_some]
    rw [ih ds o.sk os2 os' hos]
    · rfl
    · rw [← h']
      congr 1
      cases os2 with
      | nil => rfl
      | cons a l => simp [List.getLast?_cons]

theorem signAllBy_fast : ∀ (cs : List Call) (sk : Bytes) (os : List FastOut), signAllFast P f sk cs = some os →
    signAllBy P f sk (cs.map fun x => (Build.fast, x)) = some (os.map (·.toSignOut)) := by
  intro cs
  induction cs with
  | nil => intro sk os h; cases h; rfl
  | cons c cs ih =>
    intro sk os h
    rw [signAllFast] at h
    obtain ⟨o, ho, h⟩ := Option.bind_eq_some_iff.mp h
    obtain ⟨os2, hos, h⟩ := Option.bind_eq_some_iff.mp h
    obtain rfl := Option.some.inj h
    rw [List.map_cons, signAllBy, Family.signBy, ho]
    simp only [Option.bind_eq_bind, Option.bind_some, Option.map_some, ih _ _ hos, List.map_cons]

/-- **C67 (refutation).**  An XMSS key pair of the fast build signs an odd number of messages with the fast build, then one with
the simple build, then one with the fast build.  All calls return 0, but `open` rejects the last signature, unless the hash
function has an accidental coincidence inside the tree of this key (`StaleAccepted`, CrashStale.lean). -/
theorem C67_fails (hp : parseXmssFast oid = some p) (hH : coreHash P p.func p.n = some H)
    (pk0 sk0 : Bytes) (seed : Nat → Bytes) (hpk : pk0.length = 4 + p.pk_bytes) (hsk : sk0.length = 4 + p.sk_bytes)
    (hs : (seed p.n).length = 3 * p.n) :
    ∃ (k : Key) (sk : Bytes), Family.xmss.keypairFast P pk0 sk0 oid seed = some (0, k.pk oid, sk) ∧ k.Valid p ∧ k.Honest (suiteOf p H) ∧
      ∀ (cs : List Call) (c d : Call), (∀ x ∈ cs ++ [c, d], p.sig_bytes + x.msg.length ≤ x.sm.length) → cs.length % 2 = 1 →
        cs.length + 2 < 2 ^ p.full_height →
        ∃ outs oc od, signAllBy P .xmss sk (cs.map (fun x => (Build.fast, x)) ++ [(.simple, c), (.fast, d)]) = some (outs ++ [oc, od]) ∧
          (∀ o ∈ outs, o.ret = 0) ∧ oc.ret = 0 ∧ od.ret = 0 ∧ od.smlen = p.sig_bytes + d.msg.length ∧
          ((suiteOf p H).verify k.root k.pubSeed d.msg (od.sm.take p.sig_bytes) → StaleAccepted (suiteOf p H) k cs.length) ∧
          ∀ (mbuf : Bytes) (l0 : Nat), p.sig_bytes + d.msg.length < 2 ^ 64 → p.sig_bytes + d.msg.length ≤ mbuf.length →
            (∃ r, Family.xmss.signOpen P mbuf l0 (od.sm.take od.smlen) od.smlen (k.pk oid) = some r ∧ r.ret = -1) ∨
              StaleAccepted (suiteOf p H) k cs.length := by
  have f1 := parseFast_fast1 hp
  obtain ⟨g, _, ho, hk0, _, _⟩ := parseFast_good (f := .xmss) hp
  have hu : min p.insts (p.tree_height - 2) ≤ 2 * (p.insts / 2) := by unfold Params.insts; omega
  have hHl : ∀ x, (H x).length = p.n := by
    obtain ⟨H', h, h'⟩ := Family.hashFast (P := P) (f := .xmss) hp
    rw [hH] at h; cases h; exact h'
  have hpkb := g.pk_eq
  obtain ⟨a, b, c, e, h1, h2, h3⟩ : ∃ a b c : Bytes, seed p.n = a ++ b ++ c ∧ a.length = p.n ∧ b.length = p.n ∧
      c.length = p.n :=
    ⟨(seed p.n).take p.n, ((seed p.n).drop p.n).take p.n, (seed p.n).drop (p.n + p.n), split3 _ _ _,
      by simp; omega, by simp; omega, by simp; omega⟩
  obtain ⟨k, hv, hh, rfl, rfl, rfl, sk', e', af⟩ := fastXmssKeypair_after f1 hHl (pk0.drop 4) (sk0.drop 4) a b c
    (by simp; omega) (by simp; omega) h1 h2 h3
  rw [← e] at e'
  have ek : Family.xmss.keypairFast P pk0 sk0 oid seed = some (0, k.pk oid, Rfc.toByte oid 4 ++ sk') :=
    apiKeypairFast_eq hp hH (by omega) (by omega) e'
  refine ⟨k, _, ek, hv, hh, ?_⟩
  intro cs c d hs hodd hlt
  have hp' : Family.xmss.parseFast oid = some p := hp
  -- parameters of the simple build
  obtain ⟨ps, hps⟩ : ∃ ps, Family.xmss.parse oid = some ps := by
    apply Option.isSome_iff_exists.mp
    show (xmssParseOid slowSkBytes oid).isSome
    rw [C02_xmss_oids slowSkBytes oid, ← C02_xmss_oids fastSkBytes oid,
      show xmssParseOid fastSkBytes oid = some p from hp]; rfl
  obtain ⟨pf', hpf', ee⟩ := parse_both hps
  rw [hp'] at hpf'
  cases hpf'
  have hHs : coreHash P ps.func ps.n = some H := by rw [ee] at hH; exact hH
  have hS : suiteOf p H = suiteOf ps H := by rw [ee]; rfl
  have en : p.n = ps.n := by rw [ee]
  have eib : p.index_bytes = ps.index_bytes := by rw [ee]
  have efh : p.full_height = ps.full_height := by rw [ee]
  have esig : p.sig_bytes = ps.sig_bytes := by rw [ee]
  have hvs : k.Valid ps := by rw [ee] at hv; exact ⟨hv.1, hv.2, hv.3, hv.4⟩
  -- the fast calls
  obtain ⟨os, e2, hl, hp2⟩ := coreSignAllFast_after f1 hu hHl hv cs 0 sk' af (fun c hc => hs c (by simp [hc]))
  have hall := signAllBy_fast _ _ _ (signAllFast_core hp ho hH cs sk' os e2)
  set n := cs.length with hndef
  obtain ⟨o, hol, _, hafter⟩ := hp2 (n - 1) _ (List.getElem?_eq_getElem (show n - 1 < cs.length by omega))
  rw [show 0 + (n - 1) + 1 = n by omega, After1, if_pos (by omega)] at hafter
  obtain ⟨s, r, hsk⟩ := hafter
  -- the simple call
  have hfits := g.idx_fits
  have c1 := sign_call (P := P) hps hHs k hvs n (by rw [← eib]; omega) c.sm c.smlen0 c.msg (by rw [← esig]; exact hs c (by simp))
  rw [Key.sk] at c1
  have c1 := sign_frame hps (by omega) (extBytes [s] []) c1
  have ef : ∀ j, k.sk ps oid j ++ extBytes [s] [] = Rfc.toByte oid 4 ++ k.fast p j [s] [] := fun j => by
    simp [Key.sk, Key.fast, skHead, eib]
  rw [← Key.sk, ef] at c1
  simp only [if_pos (show n < 2 ^ ps.full_height - 1 by rw [← efh]; omega), if_pos (show n < 2 ^ ps.full_height by rw [← efh]; omega), nextKey, nextIdx,
    ef] at c1
  -- the last call
  obtain ⟨s2, w2, sh2, c2⟩ := stale_call f1 hHl hv hodd hlt r d.sm d.smlen0 d.msg (hs d (by simp))
  have c2' : Family.xmss.signFast P (Rfc.toByte oid 4 ++ k.fast p (n + 1) [s] []) d.sm d.smlen0 d.msg = _ :=
    apiSignFast_eq hp ho hH c2
  have hst := staleSig_length f1 hHl k n d.msg
  have et : (staleSig p H k n d.msg ++ d.msg ++ d.sm.drop (p.sig_bytes + d.msg.length)).take p.sig_bytes = staleSig p H k n d.msg := by
    rw [List.append_assoc]; exact List.take_left' hst
  refine ⟨_, ⟨0, Rfc.toByte oid 4 ++ k.fast p (n + 1) [s] [],
      (suiteOf ps H).sign k.skSeed k.skPrf k.root k.pubSeed n c.msg ++ c.msg ++ c.sm.drop (ps.sig_bytes + c.msg.length),
      ps.sig_bytes + c.msg.length⟩,
    ⟨0, Rfc.toByte oid 4 ++ k.fast p (n + 2) [s2] [],
      staleSig p H k n d.msg ++ d.msg ++ d.sm.drop (p.sig_bytes + d.msg.length), p.sig_bytes + d.msg.length⟩,
    signAllBy_append _ [(.simple, c), (.fast, d)] _ _ _ hall ?_, ?_, rfl, rfl, rfl, ?_, ?_⟩
  · rw [List.map_map, List.getLast?_map, List.getLast?_eq_getElem?, hl, hol]
    simp only [Option.map_some, Option.getD_some, Function.comp, hsk, signAllBy, Family.signBy, c1, c2', Option.bind_eq_bind, Option.bind_some]
  · intro o' ho'
    rw [List.map_map] at ho'
    obtain ⟨o1, ho1, rfl⟩ := List.mem_map.mp ho'
    obtain ⟨j, hj, rfl⟩ := List.mem_iff_getElem.mp ho1
    obtain ⟨o', ho', po, _⟩ := hp2 j _ (List.getElem?_eq_getElem (show j < cs.length by omega))
    rw [List.getElem?_eq_getElem hj] at ho'
    cases ho'
    exact (po.ok (by omega)).1
  · intro h
    simp only [et] at h
    exact staleSig_verify f1 hHl hh hodd hlt h
  · intro mbuf l0 h64 hm
    obtain ⟨r, hopen, hor, hiff⟩ := C23_open_is_rfc (P := P) hps hHs k hvs.root hvs.pubSeed (staleSig p H k n d.msg) d.msg mbuf l0
      (by rw [← esig]; exact hst) (by rw [← esig]; exact h64) (by rw [← esig]; exact hm)
    rcases hor with h | h
    · right
      exact staleSig_verify f1 hHl hh hodd hlt (by rw [hS]; exact hiff.mp h)
    · left
      refine ⟨r, ?_, h⟩
      rw [← hopen, esig]
      congr 1
      rw [← esig]
      exact List.take_left' (by rw [List.length_append, hst])

/-! ### Non-vacuity -/

-- XMSS-SHA2_10_256: the fast key is longer than the simple one, and a history of 1 + 2 calls fits.
example : ∃ p pf, Family.xmss.parse 1 = some p ∧ Family.xmss.parseFast 1 = some pf ∧ p.index_bytes + 4 * p.n = p.sk_bytes ∧ p.sk_bytes = 132 ∧
    pf.sk_bytes = fastSkBytes p ∧ pf.sk_bytes = 1373 ∧ 1 + 2 < 2 ^ pf.full_height := ⟨_, _, rfl, rfl, by decide⟩

end Xmss
