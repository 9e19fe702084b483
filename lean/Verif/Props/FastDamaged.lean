import Verif.Proof.FastAny
import Verif.Props.FastHistory
import Verif.Props.Crash
/-
C56: the fast implementation on keys whose traversal state is damaged, and crashes of the fast signing tool.
-/
namespace Xmss

variable {P : Prims} {f : Family} {oid : Nat} {p : Params} {H : Bytes → Bytes}

/-- Index, randomiser and WOTS signature of the message: the part of a signature which depends on the secret key bytes
directly and not on the traversal state. -/
def sigHead (p : Params) (H : Bytes → Bytes) (k : Key) (idx : Nat) (m : Bytes) : Bytes :=
  let S := suiteOf p H
  let R := S.PRF k.skPrf (Rfc.toByte idx 32)
  Rfc.toByte idx p.index_bytes ++ R ++
    (S.wotsSig k.skSeed k.pubSeed (S.digest R k.root idx m) 0 (idx / 2 ^ p.tree_height) (idx % 2 ^ p.tree_height)).flatten

theorem skHead_mat (ib : Bytes) (k : Key) : skHead ib k.skSeed k.skPrf k.root k.pubSeed = ib ++ k.mat := by
  simp [skHead, Key.mat]

theorem zero_mat (p : Params) : (Key.zero p).mat = List.replicate (4 * p.n) 0 := by
  simp only [Key.mat, Key.zero, ← List.replicate_add]
  congr 1; omega

/-- Every byte string of the right length is the encoding of some states. -/
theorem ext_any (k : Key) (hk : k.Valid p) (idx : Nat) {ext : Bytes} (hsk : p.sk_bytes = fastSkBytes p)
    (hext : p.index_bytes + 4 * p.n + ext.length = p.sk_bytes) :
    ∃ states sigs, ExtShape p states sigs ∧ ext = extBytes states sigs := by
  have hhead : (Rfc.toByte idx p.index_bytes ++ k.mat).length = p.index_bytes + 4 * p.n := by
    rw [List.length_append, toByte_length, Key.mat_length hk]
  obtain ⟨states, sigs, -, sh, -, e⟩ := deserialize_any (p := p) (Rfc.toByte idx p.index_bytes ++ k.mat ++ ext)
    (by rw [List.length_append, hhead, ← hsk]; omega)
  refine ⟨states, sigs, sh, ?_⟩
  have hl : ext.length = (2 * p.d - 1) * bdsStateBytes p + (p.d - 1) * p.wots_sig_bytes := by
    rw [hsk, fastSkBytes] at hext; omega
  rw [rd_mid (Rfc.toByte idx p.index_bytes ++ k.mat) [] (by rw [List.append_nil]) hhead.symm hl.symm] at e
  exact Option.some.inj e

theorem fastXmssSign_any (f : Fast1 p) (hH : ∀ x, (H x).length = p.n) {k : Key} (hk : k.Valid p) {idx : Nat}
    (hi : idx < 2 ^ p.full_height - 1) {s : BdsState} (sh : Shape p s) (sm : Bytes) (l0 : Nat) (m : Bytes)
    (hsm : p.sig_bytes + m.length ≤ sm.length) {o : FastOut} (h : fastXmssSign H p (k.fast p idx [s] []) sm l0 m = some o) :
    o.ret = 0 ∧ o.smlen = p.sig_bytes + m.length ∧
      o.sm = sigHead p H k idx m ++ s.auth.flatten ++ m ++ sm.drop (p.sig_bytes + m.length) ∧
      ∃ s', LenShape p s' ∧ o.sk = k.fast p (idx + 1) [s'] [] ∧
        ∃ a, IsSub a 0 0 ∧ xmssTraverse H p k.skSeed k.pubSeed idx { s with leaves := 0 } a = some s' := by
  have g := f.good
  have hth := g.th_lt
  have hfh := g.fh_lt
  have hfull := f.full
  rw [hfull] at hi
  have hi1 : idx < 2 ^ p.tree_height := by omega
  have hidx : idx < 256 ^ p.index_bytes := by have := g.idx_fits; rw [hfull] at this; omega
  obtain ⟨a, ⟨-, ha⟩, e⟩ := fastXmssSignBody_bind (H := H) (p := p) g hH f.d f.ib (z := []) (y := extBytes [s] [])
    (sm0 := sm.take p.sig_bytes) (old := (sm.drop p.sig_bytes).take m.length) (post := sm.drop (p.sig_bytes + m.length))
    (m := m) (s := { s with leaves := 0 }) (idx := idx) (toByte_length idx p.index_bytes) hk.skSeed hk.skPrf hk.root
    hk.pubSeed (ext1_length sh) (by simp; omega) (by simp; omega) (sh.with_leaves 0).auth_flat
  have hT : ∀ s', xmssTraverse H p k.skSeed k.pubSeed idx { s with leaves := 0 } a = some s' → LenShape p s' :=
    fun s' h' => xmssTraverse_len g hH (sh.with_leaves 0).len h'
  have e := e (fun s' h' => (hT s' h').bytes)
  rw [← split3] at e
  simp only [List.append_nil] at e
  rw [Key.fast, fastXmssSign, if_neg (by omega)] at h
  have hds := deserialize_eq (f.extShape sh) (skHead (Rfc.toByte idx p.index_bytes) k.skSeed k.skPrf k.root k.pubSeed) []
    (skHead_length (toByte_length _ _) hk.skSeed hk.skPrf hk.root hk.pubSeed)
  rw [List.append_nil] at hds
  obtain ⟨r1, -⟩ := skPhase (p := p) (extBytes [s] []) (toByte_length idx p.index_bytes) hk.skSeed hk.skPrf hk.root hk.pubSeed 0
  rw [hds] at h
  simp only [Option.bind_eq_bind, Option.bind_some, List.map_cons, List.map_nil, List.getElem?_cons_zero] at h
  have r1' : rd (skHead (Rfc.toByte idx p.index_bytes) k.skSeed k.skPrf k.root k.pubSeed ++ extBytes [s] []) 0 4 =
      some (Rfc.toByte idx p.index_bytes) := by rw [← f.ib]; rw [f.ib] at r1 ⊢; exact r1
  rw [r1', Option.bind_some, bytesToUll_eq (by rw [toByte_length]; exact g.idx_le), toNat_toByte, Nat.mod_eq_of_lt hidx] at h
  simp only [Option.bind_some] at h
  rw [if_neg (by omega), if_neg (by rw [hfull]; omega), e] at h
  obtain ⟨s', hs', rfl⟩ := Option.map_eq_some_iff.mp h
  refine ⟨rfl, rfl, ?_, s', hT s' hs', rfl, a, ha, hs'⟩
  simp only [sigHead, Nat.div_eq_of_lt hi1, Nat.mod_eq_of_lt hi1]

theorem fastXmssmtSign_any (f : FastMt p) (hH : ∀ x, (H x).length = p.n) {k : Key} (hk : k.Valid p) {idx : Nat}
    (hi : idx < 2 ^ p.full_height - 1) {states : List BdsState} {sigs : List Bytes} (sh : ExtShape p states sigs) (sm : Bytes) (l0 : Nat)
    (m : Bytes)
    (hsm : p.sig_bytes + m.length ≤ sm.length) {o : FastOut} (h : fastXmssmtSign H p (k.fast p idx states sigs) sm l0 m = some o) :
    o.ret = 0 ∧ o.smlen = p.sig_bytes + m.length ∧
      o.sm = sigHead p H k idx m ++ ((states.getD 0 default).auth.flatten ++ storedLayers states sigs (p.d - 1) 1) ++ m ++
        sm.drop (p.sig_bytes + m.length) ∧
      ∃ states' sigs', LenExt p states' sigs' ∧ o.sk = k.fast p (idx + 1) states' sigs' ∧
        ∃ oa v, mtTraverse H p k.skSeed k.pubSeed idx (states.map fun s => { s with leaves := 0 }) sigs oa = some v := by
  have g := f.good
  have hth := g.th_lt
  have hfh := g.fh_lt
  have hdpos := f.d
  have hidx : idx < 256 ^ p.index_bytes := by have := g.idx_fits; omega
  have sh0 : ExtShape p (states.map fun s => { s with leaves := 0 }) sigs :=
    { sh with states_len := by simpa using sh.states_len
              states_mem := by
                intro s hs
                obtain ⟨t, ht, rfl⟩ := List.mem_map.mp hs
                exact (sh.states_mem t ht).with_leaves 0 }
  obtain ⟨oa, ⟨-, ha⟩, e⟩ := fastXmssmtSignBody_bind (H := H) (p := p) g hH (z := []) (y := extBytes states sigs)
    (sm0 := sm.take p.sig_bytes) (old := (sm.drop p.sig_bytes).take m.length) (post := sm.drop (p.sig_bytes + m.length))
    (m := m) (idx := idx) (toByte_length idx p.index_bytes) hk.skSeed hk.skPrf hk.root
    hk.pubSeed (extBytes_length sh) (by simp; omega) (by simp; omega) sh0
  have hT : ∀ v, mtTraverse H p k.skSeed k.pubSeed idx (states.map fun s => { s with leaves := 0 }) sigs oa = some v →
      LenExt p v.states v.sigs := fun v h' => mtTraverse_len g hH sh0.len ha.h3 h'
  have e := e (fun s' h' => (hT s' h').bytes)
  rw [← split3] at e
  simp only [List.append_nil] at e
  rw [Key.fast, fastXmssmtSign, if_neg (by omega)] at h
  have hds := deserialize_eq sh (skHead (Rfc.toByte idx p.index_bytes) k.skSeed k.skPrf k.root k.pubSeed) []
    (skHead_length (toByte_length _ _) hk.skSeed hk.skPrf hk.root hk.pubSeed)
  rw [List.append_nil] at hds
  obtain ⟨r1, -⟩ := skPhase (p := p) (extBytes states sigs) (toByte_length idx p.index_bytes) hk.skSeed hk.skPrf hk.root hk.pubSeed 0
  rw [hds] at h
  simp only [Option.bind_eq_bind, Option.bind_some, r1] at h
  rw [bytesToUll_eq (by rw [toByte_length]; exact g.idx_le), toNat_toByte, Nat.mod_eq_of_lt hidx] at h
  simp only [Option.bind_some] at h
  rw [if_neg (by omega), if_neg (by omega), e] at h
  obtain ⟨v, hv, rfl⟩ := Option.map_eq_some_iff.mp h
  refine ⟨rfl, rfl, ?_, v.states, v.sigs, hT v hv, rfl, oa, v, hv⟩
  have ha : ((states.map fun s : BdsState => { s with leaves := 0 }).getD 0 default).auth = (states.getD 0 default).auth := by
    cases states <;> rfl
  have hst : ∀ k i, storedLayers (states.map fun s : BdsState => { s with leaves := 0 }) sigs k i = storedLayers states sigs k i := by
    intro k
    induction k with
    | zero => intro i; rfl
    | succ k ih =>
      intro i
      rw [storedLayers, storedLayers, ih]
      congr 3
      rw [List.getD_eq_getElem?_getD, List.getD_eq_getElem?_getD, List.getElem?_map]
      cases states[i]? <;> rfl
  simp only [sigHead, ha, hst, List.append_assoc]

/-- A secret key of the fast implementation: OID, index, key material, and arbitrary bytes `ext` where the traversal state
is stored. -/
def Key.damaged (k : Key) (p : Params) (oid idx : Nat) (ext : Bytes) : Bytes :=
  Rfc.toByte oid 4 ++ (Rfc.toByte idx p.index_bytes ++ k.mat ++ ext)

/-- What a call on a key with index `idx` and an arbitrary traversal state does, if it is defined. -/
structure PostDamaged (p : Params) (H : Bytes → Bytes) (oid : Nat) (k : Key) (idx : Nat) (c : Call) (o : FastOut) : Prop where
  ok : idx + 1 < 2 ^ p.full_height → o.ret = 0 ∧ o.smlen = p.sig_bytes + c.msg.length ∧
    (∃ rest, (sigHead p H k idx c.msg ++ rest).length = p.sig_bytes ∧
      o.sm = sigHead p H k idx c.msg ++ rest ++ c.msg ++ c.sm.drop (p.sig_bytes + c.msg.length)) ∧
    ∃ ext', p.index_bytes + 4 * p.n + ext'.length = p.sk_bytes ∧ o.sk = k.damaged p oid (idx + 1) ext'
  last : idx + 1 = 2 ^ p.full_height → o.ret = 0 ∧ o.smlen = p.sig_bytes + c.msg.length ∧
    o.sm = fastLastSig p H c.msg ++ c.msg ++ c.sm.drop (p.sig_bytes + c.msg.length) ∧
    ∃ ext', p.index_bytes + 4 * p.n + ext'.length = p.sk_bytes ∧ o.sk = (Key.zero p).damaged p oid (idx + 1) ext'
  over : 2 ^ p.full_height ≤ idx → o.ret = -2 ∧ o.sm = c.sm ∧ o.smlen = c.smlen0 ∧
    o.sk = Rfc.toByte oid 4 ++ (List.replicate p.index_bytes 0xFF ++ List.replicate (p.sk_bytes - p.index_bytes) 0)

theorem sigHead_length (g : p.Good) (hH : ∀ x, (H x).length = p.n) (k : Key) (idx : Nat) (m : Bytes) :
    (sigHead p H k idx m).length = p.index_bytes + p.n + p.wots_sig_bytes := by
  have hR : ((suiteOf p H).PRF k.skPrf (Rfc.toByte idx 32)).length = p.n := hH _
  simp only [sigHead, List.length_append, toByte_length, hR, wotsSig_flat_length g hH, g.sig_wots]

theorem apiSignFast_inv {parse : Nat → Option Params}
    {core : (Bytes → Bytes) → Params → Bytes → Bytes → Nat → Bytes → Option FastOut} (hp : parse oid = some p)
    (ho : oid < 2 ^ 8) (hH : coreHash P p.func p.n = some H) {body sm m : Bytes} {l0 : Nat} {o : FastOut}
    (h : apiSignFast P parse core (Rfc.toByte oid 4 ++ body) sm l0 m = some o) :
    ∃ o', core H p body sm l0 m = some o' ∧ o = { o' with sk := Rfc.toByte oid 4 ++ o'.sk } := by
  cases hc : core H p body sm l0 m with
  | some o' =>
    rw [apiSignFast_eq hp ho hH hc] at h
    exact ⟨o', rfl, (Option.some.inj h).symm⟩
  | none =>
    exfalso
    have t1 : ∀ x : Bytes, (Rfc.toByte oid 4 ++ x).drop oidLen = x := fun x => List.drop_left' (toByte_length _ _)
    rw [apiSignFast, readOid_toByte (by omega)] at h
    simp only [Option.bind_eq_bind, Option.bind_some, hp, hH, t1, hc] at h
    cases h

/-- **C56 (one call).**  Whatever bytes are stored as traversal state: if the call is defined, it uses the stored index,
advances it by one, leaves the key material alone, and signs the message with the one-time key of that index. -/
theorem C56_damaged_state (hp : f.parseFast oid = some p) (hH : coreHash P p.func p.n = some H) (k : Key) (hk : k.Valid p)
    (idx : Nat) (hidx : idx < 256 ^ p.index_bytes) (ext : Bytes) (hext : p.index_bytes + 4 * p.n + ext.length = p.sk_bytes)
    (c : Call) (hsm : p.sig_bytes + c.msg.length ≤ c.sm.length) (o : FastOut)
    (h : f.signFast P (k.damaged p oid idx ext) c.sm c.smlen0 c.msg = some o) : PostDamaged p H oid k idx c o := by
  obtain ⟨g, hskb, ho, _, _, _⟩ := parseFast_good hp
  obtain ⟨H', hH', hHl⟩ := Family.hashFast (P := P) hp
  rw [hH] at hH'
  obtain rfl := Option.some.inj hH'
  obtain ⟨states, sigs, sh, rfl⟩ := ext_any k hk idx hskb hext
  have hsg := g.sig_eq'
  have hB : (p.wots_len + p.tree_height) * p.n = p.wots_sig_bytes + p.tree_height * p.n := by rw [g.sig_wots]; ring
  have hpos : 0 < 2 ^ p.full_height := Nat.two_pow_pos _
  have hdec : p.sk_bytes = p.index_bytes + 4 * p.n + ((2 * p.d - 1) * bdsStateBytes p + (p.d - 1) * p.wots_sig_bytes) := by
    rw [hskb, fastSkBytes]; omega
  have hdam : ∀ (k : Key) idx states sigs, k.damaged p oid idx (extBytes states sigs) = Rfc.toByte oid 4 ++ k.fast p idx states sigs := by
    intro k idx states sigs
    rw [Key.damaged, Key.fast, skHead_mat]
  rw [hdam] at h
  have hover : ∀ core : (Bytes → Bytes) → Params → Bytes → Bytes → Nat → Bytes → Option FastOut,
      (∀ ib body : Bytes, ib.length = p.index_bytes → p.index_bytes + body.length = p.sk_bytes → 2 ^ p.full_height ≤ Rfc.toNat ib →
        core H p (ib ++ body) c.sm c.smlen0 c.msg = some
          { ret := -2, sk := List.replicate p.index_bytes 0xFF ++ List.replicate body.length 0, sm := c.sm, smlen := c.smlen0, leaves := 0 }) →
      ∀ o', core H p (k.fast p idx states sigs) c.sm c.smlen0 c.msg = some o' → 2 ^ p.full_height ≤ idx →
      o'.ret = -2 ∧ o'.sm = c.sm ∧ o'.smlen = c.smlen0 ∧
        o'.sk = List.replicate p.index_bytes 0xFF ++ List.replicate (p.sk_bytes - p.index_bytes) 0 := by
    intro core hc o' ho' hi
    have hl : (k.mat ++ extBytes states sigs).length = p.sk_bytes - p.index_bytes := by
      rw [List.length_append, Key.mat_length hk, extBytes_length sh]; omega
    rw [Key.fast, skHead_mat, List.append_assoc, hc _ _ (toByte_length _ _) (by rw [hl]; omega)
      (by rw [toNat_toByte, Nat.mod_eq_of_lt hidx]; exact hi), hl] at ho'
    obtain rfl := Option.some.inj ho'
    exact ⟨rfl, rfl, rfl, rfl⟩
  cases f with
  | xmss =>
    have f1 := parseFast_fast1 hp
    obtain ⟨o', ho', rfl⟩ := apiSignFast_inv (parse := parseXmssFast) (core := fastXmssSign) hp ho hH h
    obtain ⟨s, rfl⟩ : ∃ s, states = [s] := by
      have := sh.states_len; rw [f1.d] at this
      exact List.length_eq_one_iff.mp this
    obtain rfl : sigs = [] := by
      have := sh.sigs_len; rw [f1.d] at this
      exact List.eq_nil_of_length_eq_zero this
    have s1 : Shape p s := sh.states_mem s (List.mem_singleton.mpr rfl)
    refine ⟨fun hi => ?_, fun hi => ?_, fun hi => ?_⟩
    · obtain ⟨a1, a2, a3, s', a4, a5, -⟩ := fastXmssSign_any f1 hHl hk (by omega) s1 c.sm c.smlen0 c.msg hsm ho'
      refine ⟨a1, a2, ⟨_, ?_, a3⟩, extBytes [s'] [], ?_, ?_⟩
      · rw [List.length_append, sigHead_length g hHl, s1.auth_flat]
        rw [f1.d, one_mul, hB] at hsg; omega
      · rw [LenExt.bytes (p := p) (states := [s']) (sigs := []) ⟨by rw [f1.d]; rfl, by simpa using a4, by rw [f1.d]; rfl, by simp⟩, hdec]
      · rw [hdam]; simp only [a5]
    · obtain rfl : idx = 2 ^ p.full_height - 1 := by omega
      obtain ⟨s', n, a1, rfl, a3⟩ := fastXmssSign_last f1 hHl hk s1 c.sm c.smlen0 c.msg hsm
      rw [a3] at ho'
      obtain rfl := Option.some.inj ho'
      refine ⟨rfl, rfl, ?_, extBytes [s'] [], ?_, ?_⟩
      · have hlt : 2 ^ p.full_height - 1 < 2 ^ p.tree_height := by rw [f1.full] at hpos ⊢; omega
        simp only [fastLastSig, Nat.div_eq_of_lt hlt, Nat.mod_eq_of_lt hlt, f1.d]
        simp
      · rw [ext1_length a1, hdec, f1.d]; omega
      · rw [hdam, show 2 ^ p.full_height - 1 + 1 = 2 ^ p.full_height by omega]
    · obtain ⟨a1, a2, a3, a4⟩ := hover fastXmssSign (fun ib body h1 h2 h3 => fastXmssSign_exhausted f1 h1 h2 h3 _ _ _) o' ho' hi
      exact ⟨a1, a2, a3, by rw [a4]⟩
  | xmssmt =>
    have f1 := parseFast_mt hp
    obtain ⟨o', ho', rfl⟩ := apiSignFast_inv (parse := parseXmssmtFast) (core := fastXmssmtSign) hp ho hH h
    have hst0 : 0 < states.length := by have := sh.states_len; have := f1.d; omega
    refine ⟨fun hi => ?_, fun hi => ?_, fun hi => ?_⟩
    · obtain ⟨a1, a2, a3, st', sg', a4, a5, -⟩ := fastXmssmtSign_any f1 hHl hk (by omega) sh c.sm c.smlen0 c.msg hsm ho'
      refine ⟨a1, a2, ⟨_, ?_, a3⟩, extBytes st' sg', ?_, ?_⟩
      · rw [List.length_append, sigHead_length g hHl, List.length_append, storedLayers_length sh _ _ (Nat.le_refl _) (by have := f1.d; omega),
          List.getD_eq_getElem?_getD, List.getElem?_eq_getElem hst0, Option.getD_some, (sh.states_mem _ (List.getElem_mem hst0)).auth_flat]
        rw [hB] at hsg
        have hdB : p.d * (p.wots_sig_bytes + p.tree_height * p.n) =
            p.wots_sig_bytes + p.tree_height * p.n + (p.d - 1) * (p.wots_sig_bytes + p.tree_height * p.n) := by
          obtain ⟨k, hk⟩ : ∃ k, p.d = k + 1 := ⟨p.d - 1, by have := f1.d; omega⟩
          rw [hk, Nat.add_sub_cancel]; ring
        omega
      · rw [a4.bytes, hdec]
      · rw [hdam]; simp only [a5]
    · obtain rfl : idx = 2 ^ p.full_height - 1 := by omega
      obtain ⟨st', sg', sm', a1, rfl, a3⟩ := fastXmssmtSign_last f1 hHl hk sh c.sm c.smlen0 c.msg hsm
      rw [a3] at ho'
      obtain rfl := Option.some.inj ho'
      refine ⟨rfl, rfl, rfl, extBytes st' sg', ?_, ?_⟩
      · rw [extBytes_length a1, hdec]
      · rw [hdam, show 2 ^ p.full_height - 1 + 1 = 2 ^ p.full_height by omega]
    · obtain ⟨a1, a2, a3, a4⟩ := hover fastXmssmtSign (fun ib body h1 h2 h3 => fastXmssmtSign_exhausted f1 h1 h2 h3 _ _ _) o' ho' hi
      exact ⟨a1, a2, a3, by rw [a4]⟩

theorem zero_valid (p : Params) : (Key.zero p).Valid p := by constructor <;> simp [Key.zero]

theorem toNat_replicate_ff (n : Nat) : Rfc.toNat (List.replicate n 0xFF) = 256 ^ n - 1 := by
  induction n with
  | zero => rfl
  | succ n ih =>
    rw [show List.replicate (n + 1) (0xFF : UInt8) = List.replicate n 0xFF ++ [0xFF] from by rw [List.replicate_succ'], toNat_append, ih,
      List.length_singleton]
    have : Rfc.toNat [(0xFF : UInt8)] = 255 := by decide
    have hpos : 0 < 256 ^ n := by positivity
    rw [this, pow_succ]
    omega

theorem deleted_eq (hext : p.index_bytes + 4 * p.n ≤ p.sk_bytes) :
    Rfc.toByte oid 4 ++ (List.replicate p.index_bytes 0xFF ++ List.replicate (p.sk_bytes - p.index_bytes) 0) =
      (Key.zero p).damaged p oid (256 ^ p.index_bytes - 1) (List.replicate (p.sk_bytes - p.index_bytes - 4 * p.n) 0) := by
  have h1 : Rfc.toByte (256 ^ p.index_bytes - 1) p.index_bytes = List.replicate p.index_bytes 0xFF := by
    have hpos : 0 < 256 ^ p.index_bytes := by positivity
    apply toNat_injective
    · simp [toByte_length]
    · rw [toNat_toByte, Nat.mod_eq_of_lt (by omega), toNat_replicate_ff]
  rw [Key.damaged, h1, zero_mat, List.append_assoc (List.replicate _ _) (List.replicate _ _), ← List.replicate_add]
  congr 4
  omega

theorem damaged_trace (hp : f.parseFast oid = some p) (hH : coreHash P p.func p.n = some H) (k : Key) :
    ∀ (cs : List Call) (n : Nat) (k' : Key) (x : Nat) (ext : Bytes) (outs : List FastOut), k'.Valid p → x < 256 ^ p.index_bytes →
      p.index_bytes + 4 * p.n + ext.length = p.sk_bytes → (n < 2 ^ p.full_height → k' = k ∧ x = n) →
      (2 ^ p.full_height ≤ n → 2 ^ p.full_height ≤ x) → (∀ c ∈ cs, p.sig_bytes + c.msg.length ≤ c.sm.length) →
      (n + cs.length ≤ 2 ^ p.full_height ∨ 2 ^ p.full_height < 256 ^ p.index_bytes) →
      signAllFast P f (k'.damaged p oid x ext) cs = some outs → outs.length = cs.length ∧ ∀ j c o, cs[j]? = some c → outs[j]? = some o →
        ∃ k'' x', PostDamaged p H oid k'' x' c o ∧ (n + j < 2 ^ p.full_height → k'' = k ∧ x' = n + j) ∧
          (2 ^ p.full_height ≤ n + j → 2 ^ p.full_height ≤ x') := by
  obtain ⟨g, hskb, ho, _, _, _⟩ := parseFast_good hp
  have hpos : 0 < 2 ^ p.full_height := Nat.two_pow_pos _
  intro cs
  induction cs with
  | nil => intro n k' x ext outs _ _ _ _ _ _ _ h; cases h; exact ⟨rfl, fun j c o h => by simp at h⟩
  | cons c cs ih =>
    intro n k' x ext outs hk' hx hext h1 h2 hcs hfit h
    rw [signAllFast] at h
    obtain ⟨o, ho, h⟩ := Option.bind_eq_some_iff.mp h
    obtain ⟨os, hos, h⟩ := Option.bind_eq_some_iff.mp h
    obtain rfl := Option.some.inj h
    have post := C56_damaged_state hp hH k' hk' x hx ext hext c (hcs c (List.mem_cons_self ..)) o ho
    rw [List.length_cons] at hfit
    have key : ∃ k1 x1 ext1, k1.Valid p ∧ x1 < 256 ^ p.index_bytes ∧ p.index_bytes + 4 * p.n + ext1.length = p.sk_bytes ∧
        (n + 1 < 2 ^ p.full_height → k1 = k ∧ x1 = n + 1) ∧ (2 ^ p.full_height ≤ n + 1 → cs = [] ∨ 2 ^ p.full_height ≤ x1) ∧
        (o.sk = k1.damaged p oid x1 ext1) := by
      rcases Nat.lt_trichotomy (x + 1) (2 ^ p.full_height) with hl | hl | hl
      · obtain ⟨_, _, _, ext', e1, e2⟩ := post.ok hl
        have hn : n < 2 ^ p.full_height := by
          by_contra hc
          have := h2 (by omega); omega
        obtain ⟨rfl, rfl⟩ := h1 hn
        have := g.idx_fits
        exact ⟨k', x + 1, ext', hk', by omega, e1, fun _ => ⟨rfl, rfl⟩, fun _ => by omega, e2⟩
      · obtain ⟨_, _, _, ext', e1, e2⟩ := post.last hl
        have hn : n < 2 ^ p.full_height := by
          by_contra hc
          have := h2 (by omega); omega
        obtain ⟨rfl, rfl⟩ := h1 hn
        rcases hfit with hf | hf
        · obtain rfl : cs = [] := List.eq_nil_of_length_eq_zero (by omega)
          refine ⟨Key.zero p, (x + 1) % 256 ^ p.index_bytes, ext', zero_valid p, Nat.mod_lt _ (by positivity), e1,
            fun _ => by omega, fun _ => Or.inl rfl, ?_⟩
          rw [e2, Key.damaged, Key.damaged]
          congr 3
          apply toNat_injective
          · simp [toByte_length]
          · rw [toNat_toByte, toNat_toByte, Nat.mod_mod]
        · exact ⟨Key.zero p, x + 1, ext', zero_valid p, by omega, e1, fun _ => by omega, fun _ => Or.inr (by omega), e2⟩
      · obtain ⟨_, _, _, e2⟩ := post.over (by omega)
        rw [deleted_eq (by omega)] at e2
        refine ⟨Key.zero p, 256 ^ p.index_bytes - 1, _, zero_valid p, by omega, ?_, ?_, fun _ => Or.inr (by omega), e2⟩
        · rw [List.length_replicate]; omega
        · intro hn
          obtain ⟨_, rfl⟩ := h1 (by omega)
          omega
    obtain ⟨k1, x1, ext1, g1, g2, g3, g4, g5, g6⟩ := key
    rw [g6] at hos
    have hrest : os.length = cs.length ∧ ∀ j c o, cs[j]? = some c → os[j]? = some o →
        ∃ k'' x', PostDamaged p H oid k'' x' c o ∧ (n + 1 + j < 2 ^ p.full_height → k'' = k ∧ x' = n + 1 + j) ∧
          (2 ^ p.full_height ≤ n + 1 + j → 2 ^ p.full_height ≤ x') := by
      rcases List.eq_nil_or_concat cs with rfl | hne
      · cases hos
        exact ⟨rfl, fun j c o h => by simp at h⟩
      · have hcs' : cs ≠ [] := by obtain ⟨l, b, rfl⟩ := hne; simp
        exact ih (n + 1) k1 x1 ext1 os g1 g2 g3 g4 (fun hh => (g5 hh).resolve_left hcs')
          (fun c' hc' => hcs c' (List.mem_cons_of_mem _ hc')) (hfit.imp (by omega) id) hos
    refine ⟨by simp [hrest.1], ?_⟩
    intro j c' o' hc ho'
    cases j with
    | zero =>
      simp only [List.getElem?_cons_zero, Option.some.injEq] at hc ho'
      subst hc ho'
      exact ⟨k', x, post, h1, h2⟩
    | succ j =>
      rw [List.getElem?_cons_succ] at hc ho'
      obtain ⟨k2, x2, a, b, c⟩ := hrest.2 j c' o' hc ho'
      refine ⟨k2, x2, a, ?_, ?_⟩
      · rw [show n + (j + 1) = n + 1 + j by omega]; exact b
      · rw [show n + (j + 1) = n + 1 + j by omega]; exact c

/-- **C56.**  Start from a key whose traversal state is arbitrary bytes, with stored index `idx`, and make any number of
calls.  If no call is undefined behaviour, call number `j` carries the index `idx + j` and the one-time signature of this
index as long as `idx + j < 2^h - 1`; the call with the last index gives bytes that do not depend on the key; all later
calls are refused.  So no damage of the state makes the implementation use an index twice or go on after the last one.
(At height 40 the index bytes wrap around after the last index, so the history must end there.) -/
theorem C56_damaged_history (hp : f.parseFast oid = some p) (hH : coreHash P p.func p.n = some H) (k : Key) (hk : k.Valid p)
    (idx : Nat) (hidx : idx < 2 ^ p.full_height) (ext : Bytes) (hext : p.index_bytes + 4 * p.n + ext.length = p.sk_bytes)
    (cs : List Call) (hcs : ∀ c ∈ cs, p.sig_bytes + c.msg.length ≤ c.sm.length)
    (hfit : idx + cs.length ≤ 2 ^ p.full_height ∨ 2 ^ p.full_height < 256 ^ p.index_bytes) (outs : List FastOut)
    (h : signAllFast P f (Rfc.toByte oid 4 ++ (Rfc.toByte idx p.index_bytes ++ (k.skSeed ++ k.skPrf ++ k.root ++ k.pubSeed) ++ ext)) cs =
      some outs) :
    outs.length = cs.length ∧ ∀ j c o, cs[j]? = some c → outs[j]? = some o →
      (idx + j + 1 < 2 ^ p.full_height → o.ret = 0 ∧ o.smlen = p.sig_bytes + c.msg.length ∧ sigHead p H k (idx + j) c.msg <+: o.sm ∧
        ∃ ext', o.sk = Rfc.toByte oid 4 ++ (Rfc.toByte (idx + j + 1) p.index_bytes ++ (k.skSeed ++ k.skPrf ++ k.root ++ k.pubSeed) ++ ext')) ∧
      (idx + j + 1 = 2 ^ p.full_height → o.ret = 0 ∧ fastLastSig p H c.msg <+: o.sm) ∧
      (2 ^ p.full_height ≤ idx + j → o.ret = -2 ∧ o.sm = c.sm ∧ o.smlen = c.smlen0) := by
  obtain ⟨g, hskb, ho, _, _, _⟩ := parseFast_good hp
  have hfits := g.idx_fits
  obtain ⟨hl, hall⟩ := damaged_trace hp hH k cs idx k idx ext outs hk (by omega) hext (fun _ => ⟨rfl, rfl⟩) (fun h => by omega) hcs hfit h
  refine ⟨hl, fun j c o hc ho' => ?_⟩
  obtain ⟨k', x, post, a, b⟩ := hall j c o hc ho'
  refine ⟨fun hi => ?_, fun hi => ?_, fun hi => ?_⟩
  · obtain ⟨rfl, rfl⟩ := a (by omega)
    obtain ⟨p1, p2, ⟨rest, _, p3⟩, ext', _, p4⟩ := post.ok hi
    exact ⟨p1, p2, by rw [p3, List.append_assoc, List.append_assoc]; exact List.prefix_append _ _, ext', p4⟩
  · obtain ⟨rfl, rfl⟩ := a (by omega)
    obtain ⟨p1, p2, p3, _⟩ := post.last hi
    exact ⟨p1, by rw [p3, List.append_assoc]; exact List.prefix_append _ _⟩
  · obtain ⟨p1, p2, p3, _⟩ := post.over (b hi)
    exact ⟨p1, p2, p3⟩

/-! ### Non-vacuity: a damaged state on which the calls are defined -/

/-- A state that was never built: all nodes are zero, all instances are marked as finished. -/
def junkState (p : Params) : BdsState :=
  { stack := List.replicate (p.tree_height + 1) (List.replicate p.n 0)
    stackoffset := 0
    stacklevels := List.replicate (p.tree_height + 1) 0
    auth := List.replicate p.tree_height (List.replicate p.n 0)
    keep := List.replicate (p.tree_height / 2) (List.replicate p.n 0)
    treehash := List.replicate p.insts { h := 0, nextIdx := 0, stackusage := 0, completed := 1, node := List.replicate p.n 0 }
    retain := List.replicate (2 ^ p.bds_k - p.bds_k - 1) (List.replicate p.n 0)
    nextLeaf := 0
    leaves := 0 }

theorem junkState_shape (p : Params) : Shape p (junkState p) where
  stack_len := by simp [junkState]
  stack_mem := by intro x hx; rw [List.eq_of_mem_replicate hx, List.length_replicate]
  levels_len := by simp [junkState]
  levels_mem := by intro x hx; rw [List.eq_of_mem_replicate hx]; omega
  auth_len := by simp [junkState]
  auth_mem := by intro x hx; rw [List.eq_of_mem_replicate hx, List.length_replicate]
  keep_len := by simp [junkState]
  keep_mem := by intro x hx; rw [List.eq_of_mem_replicate hx, List.length_replicate]
  insts_len := by simp [junkState]
  insts_mem := by intro x hx; rw [List.eq_of_mem_replicate hx]; simp
  retain_len := by simp [junkState]
  retain_mem := by intro x hx; rw [List.eq_of_mem_replicate hx, List.length_replicate]
  off_lt := by simp [junkState]
  next_lt := by simp [junkState]

/-- If all instances are finished, there is nothing to do. -/
theorem pickLoop_done {s : BdsState} (h : ∀ i < p.insts, ∃ t, s.treehash[i]? = some t ∧ t.completed ≠ 0) :
    ∀ k i, i + k = p.insts → pickLoop p s k i p.insts p.tree_height = some p.insts := by
  intro k
  induction k with
  | zero => intro i _; rfl
  | succ k ih =>
    intro i hi
    obtain ⟨t, ht, hc⟩ := h i (by omega)
    rw [pickLoop, lowOf, ht]
    simp only [Option.bind_eq_bind, Option.bind_some, if_pos hc, lt_irrefl, if_false]
    exact ih (i + 1) (by omega)

theorem bdsTreehashUpdate_done {s : BdsState} (h : ∀ i < p.insts, ∃ t, s.treehash[i]? = some t ∧ t.completed ≠ 0)
    {skSeed pubSeed : Bytes} {a : Addr} {u : Nat} :
    ∃ n, bdsTreehashUpdate H p s u skSeed pubSeed a = some (s, n) := by
  have : bdsUpdateLoop H p skSeed pubSeed a u s 0 = some (s, 0) := by
    cases u with
    | zero => rfl
    | succ u =>
      rw [bdsUpdateLoop, pickLevel, pickLoop_done h _ _ (Nat.zero_add _)]
      simp
  exact ⟨_, by rw [bdsTreehashUpdate, this]; rfl⟩

/-- On the junk state, at every even index, the call is defined and returns 0 (with a useless signature). -/
theorem C56_nonvacuous (hp : parseXmssFast oid = some p) (hH : coreHash P p.func p.n = some H) (k : Key) (hk : k.Valid p)
    (idx : Nat) (hi : idx + 1 < 2 ^ p.full_height) (he : idx % 2 = 0) (c : Call) (hsm : p.sig_bytes + c.msg.length ≤ c.sm.length) :
    p.index_bytes + 4 * p.n + (extBytes [junkState p] []).length = p.sk_bytes ∧
      ∃ o, Family.xmss.signFast P (k.damaged p oid idx (extBytes [junkState p] [])) c.sm c.smlen0 c.msg = some o ∧ o.ret = 0 := by
  have hp' : Family.xmss.parseFast oid = some p := hp
  obtain ⟨g, hskb, ho, _, _, _⟩ := parseFast_good hp'
  obtain ⟨H', hH', hHl⟩ := Family.hashFast (P := P) hp'
  rw [hH] at hH'
  obtain rfl := Option.some.inj hH'
  have f1 := parseFast_fast1 hp'
  refine ⟨?_, ?_⟩
  · rw [ext1_length (junkState_shape p), hskb, fastSkBytes, f1.d]; omega
  · obtain ⟨s', n, -, e⟩ := fastXmssSign_gen f1 hHl hk (idx := idx) (by omega) (junkState_shape p) (Shape p) (fun _ h => h)
      (by
        intro a ha
        have hfull := f1.full
        obtain ⟨s1, e1, sh1, -, -, -, -, -, -, -, tau, m, htau, hth⟩ := bdsRound_safe (treeCtx_suite g hHl k.skSeed k.pubSeed 0 0) hHl g.th_lt
          (by have := f1.k; omega) ha ((junkState_shape p).with_leaves 0) (φ := idx) (by rw [← hfull]; exact hi)
        obtain rfl : tau = 0 := by
          rcases Nat.eq_zero_or_pos tau with h0 | h0
          · exact h0
          · obtain ⟨r, rfl⟩ : ∃ r, tau = r + 1 := ⟨tau - 1, by omega⟩
            rw [pow_succ, mul_comm (2 ^ r), mul_assoc] at htau
            omega
        obtain ⟨n, e2⟩ := bdsTreehashUpdate_done (p := p) (H := H) (s := s1) (skSeed := k.skSeed) (pubSeed := k.pubSeed) (a := a) (u := p.insts / 2)
          (by
            intro i hi
            have := hth i { h := 0, nextIdx := 0, stackusage := 0, completed := 1, node := List.replicate p.n 0 }
              (by simp [junkState, hi])
            rw [if_neg (by omega)] at this
            exact ⟨_, this, by simp⟩)
        exact ⟨s1, s1, n, e1, e2, sh1⟩) c.sm c.smlen0 c.msg hsm
    have hdam : k.damaged p oid idx (extBytes [junkState p] []) = Rfc.toByte oid 4 ++ k.fast p idx [junkState p] [] := by
      rw [Key.damaged, Key.fast, skHead_mat]
    rw [hdam]
    exact ⟨_, apiSignFast_eq (parse := parseXmssFast) (core := fastXmssSign) hp ho hH e, rfl⟩

end Xmss
