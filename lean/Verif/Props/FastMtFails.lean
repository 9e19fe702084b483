import Verif.Props.FastMt
import Verif.Proof.MtBadSign
/-
C33, C34: what the fast implementation does with the sets of at least five layers of height five (40/8, 60/12) from
index 2^20 on.
-/
namespace Xmss
open Sched

variable {P : Prims} {oid : Nat} {p pf : Params} {H : Bytes → Bytes} {x : Option Bytes}

/-- A secret key after `n` signatures. -/
def AfterMix (p : Params) (H : Bytes → Bytes) (k : Key) (x : Option Bytes) (n : Nat) (sk : Bytes) : Prop :=
  ∃ states sigs, MixInv H p k.skSeed k.pubSeed x n states sigs ∧ sk = k.fast p n states sigs

theorem mix_history (hp : parseXmssmtFast oid = some p) (ho : oid < 2 ^ 8) (ht : p.tree_height = 5) (h5 : 5 ≤ p.d) (hd : p.d ≤ 100)
    (hH : coreHash P p.func p.n = some H) (hHl : ∀ x, (H x).length = p.n) {k : Key} (hk : k.Valid p) :
    ∀ (cs : List Call) (n : Nat) (sk : Bytes), AfterMix p H k x n sk → n + cs.length < 2 ^ 20 + 2 ^ 18 →
    (∀ c ∈ cs, p.sig_bytes + c.msg.length ≤ c.sm.length) →
    ∃ os : List FastOut, signAllFast P .xmssmt (Rfc.toByte oid 4 ++ sk) cs = some os ∧ os.length = cs.length ∧
      ∀ (j : Nat) (o : FastOut), os[j]? = some o → o.ret = 0 ∧ o.sk.length = 4 + p.sk_bytes ∧
        (n + j = 2 ^ 20 → ∀ y, x = some y → (o.sm.drop (badOff p)).take p.n = y) := by
  have f := parseFast_mt hp
  intro cs
  induction cs with
  | nil => intro n sk _ _ _; exact ⟨[], rfl, rfl, by simp⟩
  | cons c cs ih =>
    intro n sk ⟨states, sigs, mi, hsk⟩ hn hs
    subst hsk
    rw [List.length_cons] at hn
    obtain ⟨states', sigs', w, sm', mi', e, hx⟩ := fastXmssmtSign_mix f ht h5 hd hHl hk (by omega) mi c.sm c.smlen0 c.msg (hs c (by simp))
    obtain ⟨os, e2, hl, hp2⟩ := ih (n + 1) _ ⟨states', sigs', mi', rfl⟩ (by omega) (fun c' h' => hs c' (by simp [h']))
    refine ⟨{ ret := 0, sk := Rfc.toByte oid 4 ++ k.fast p (n + 1) states' sigs', sm := sm', smlen := p.sig_bytes + c.msg.length, leaves := w } :: os,
      ?_, by simp [hl], ?_⟩
    · rw [signAllFast, show Family.signFast P Family.xmssmt = apiSignFast P parseXmssmtFast fastXmssmtSign from rfl,
        apiSignFast_eq hp ho hH e]
      simp only [Option.bind_eq_bind, Option.bind_some, e2]
    · intro j o hj
      cases j with
      | zero =>
        rw [List.getElem?_cons_zero] at hj
        cases hj
        refine ⟨rfl, ?_, hx⟩
        simp only [List.length_append, toByte_length]
        rw [Key.fastmt_length f hk (mi'.ext f.good hHl)]
      | succ j =>
        rw [List.getElem?_cons_succ] at hj
        have := hp2 j o hj
        rw [show n + (j + 1) = n + 1 + j by omega]
        exact this

theorem mix_history_none (hp : parseXmssmtFast oid = some p) (ho : oid < 2 ^ 8) (ht : p.tree_height = 5) (h5 : 5 ≤ p.d) (hd : p.d ≤ 100)
    (hH : coreHash P p.func p.n = some H) (hHl : ∀ x, (H x).length = p.n) {k : Key} (hk : k.Valid p) :
    ∀ (cs : List Call) (n : Nat) (sk : Bytes), AfterMix p H k x n sk → n < 2 ^ 20 + 2 ^ 18 → 2 ^ 20 + 2 ^ 18 ≤ n + cs.length →
    (∀ c ∈ cs, p.sig_bytes + c.msg.length ≤ c.sm.length) → signAllFast P .xmssmt (Rfc.toByte oid 4 ++ sk) cs = none := by
  have f := parseFast_mt hp
  intro cs
  induction cs with
  | nil => intro n sk _ h1 h2 _; rw [List.length_nil] at h2; omega
  | cons c cs ih =>
    intro n sk ⟨states, sigs, mi, hsk⟩ hn hn2 hs
    subst hsk
    rw [List.length_cons] at hn2
    rw [signAllFast, show Family.signFast P Family.xmssmt = apiSignFast P parseXmssmtFast fastXmssmtSign from rfl]
    by_cases hlast : n + 1 < 2 ^ 20 + 2 ^ 18
    · obtain ⟨states', sigs', w, sm', mi', e, hx⟩ := fastXmssmtSign_mix f ht h5 hd hHl hk hlast mi c.sm c.smlen0 c.msg (hs c (by simp))
      rw [apiSignFast_eq hp ho hH e]
      simp only [Option.bind_eq_bind, Option.bind_some]
      rw [ih (n + 1) _ ⟨states', sigs', mi', rfl⟩ hlast (by omega) (fun c' h' => hs c' (by simp [h']))]
      rfl
    · have e := fastXmssmtSign_overflow f ht h5 hd hHl hk (by omega) mi c.sm c.smlen0 c.msg
      have t1 : ∀ x : Bytes, (Rfc.toByte oid 4 ++ x).drop oidLen = x := fun x => List.drop_left' (toByte_length _ _)
      have : apiSignFast P parseXmssmtFast fastXmssmtSign (Rfc.toByte oid 4 ++ k.fast p n states sigs) c.sm c.smlen0 c.msg = none := by
        rw [apiSignFast, readOid_toByte (by omega)]
        simp only [Option.bind_eq_bind, Option.bind_some, hp, hH, t1, e, Option.bind_none]
      rw [this]
      rfl

theorem mt_d_le (hp : parseXmssmtFast oid = some p) : p.d ≤ 100 := by
  obtain ⟨e, he, _, rfl⟩ := xmssmt_parse_entry hp
  have : ∀ e ∈ Registry.xmssmt, e.d ≤ 100 := by decide +kernel
  exact this e he

/-- Key generation, with a watched slot. -/
theorem mix_keypair (hp : parseXmssmtFast oid = some p) (hH : coreHash P p.func p.n = some H) (pk0 sk0 : Bytes)
    (hpk : pk0.length = 4 + p.pk_bytes) (hsk : sk0.length = 4 + p.sk_bytes) (seed : Nat → Bytes)
    (hs : (seed p.n).length = 3 * p.n)
    (hx : ∀ y, x = some y → ∃ st sg, deserializeStates p (sk0.drop 4) = some (st, sg) ∧ 
      (st[p.d + 3]?.bind fun s => s.auth[p.tree_height - 1]?) = some y) :
    ∃ k : Key, k.Valid p ∧ k.Honest (suiteOf p H) ∧ seed p.n = k.skSeed ++ k.skPrf ++ k.pubSeed ∧
      ∃ sk, sk.length = p.sk_bytes ∧ xmssmtKeypairFast P pk0 sk0 oid seed = some (0, k.pk oid, Rfc.toByte oid 4 ++ sk) ∧
        AfterMix p H k x 0 sk := by
  have f := parseFast_mt hp
  obtain ⟨g, _, ho, _, _, _⟩ := parseFast_good (f := .xmssmt) hp
  have hHl : ∀ x, (H x).length = p.n := by
    obtain ⟨H', h, h'⟩ := C12_core_hash P _ oid p (Or.inr hp)
    rw [hH] at h; cases h; exact h'
  have hpkb := g.pk_eq
  obtain ⟨a, b, c, e, h1, h2, h3⟩ : ∃ a b c : Bytes, seed p.n = a ++ b ++ c ∧ a.length = p.n ∧ b.length = p.n ∧
      c.length = p.n :=
    ⟨(seed p.n).take p.n, ((seed p.n).drop p.n).take p.n, (seed p.n).drop (p.n + p.n), split3 _ _ _,
      by simp; omega, by simp; omega, by simp; omega⟩
  obtain ⟨st0, sg0, states, sigs, hds, mi', _, e'⟩ := fastXmssmtKeypair_eq f hHl (pk0.drop 4) (sk0.drop 4) a b c
    (by simp; omega) (by simp; omega) h1 h2 h3
  rw [← e] at e'
  have mi := mi' (z3 x) (by
    intro i y hy
    unfold z3 at hy
    split at hy
    · rename_i hi
      subst hi
      obtain ⟨st, sg, hds', hau⟩ := hx y hy
      rw [hds] at hds'
      cases hds'
      exact hau
    · cases hy)
  have hv : (Key.mk a b ((suiteOf p H).root a c) c).Valid p := ⟨h1, h2, node_length g hHl _ _ _ _ _ _, h3⟩
  refine ⟨⟨a, b, (suiteOf p H).root a c, c⟩, hv, rfl, e, _, Key.fastmt_length f hv (mi.ext g hHl),
    apiKeypairFast_eq hp hH (by omega) (by omega) e', states, sigs, ?_, rfl⟩
  obtain ⟨A, c, m⟩ := mi
  refine ⟨A, c, m.states_len, m.sigs_len, ?_, m.plan⟩
  intro k hk
  obtain ⟨cur, h1, h2⟩ := m.layer k hk
  exact ⟨cur, h1, by rw [MixQ, if_neg (by omega)]; exact h2⟩

/-- **C34 fails.**  For the OIDs with at least five layers of height five (XMSSMT-*_40/8_*, *_60/12_*), every seed and every
content of the buffers: all histories of fewer than `2^20 + 2^18` calls are defined, but every longer history is not.  In call
number `2^20 + 2^18` (index `2^20 + 2^18 - 1`) the traversal writes behind the node stack of a state.  The budget of updates
is decremented below zero when three layers change their tree at once, so the tree of layer 3 that takes over at index
`2^20` has 31 of its 32 leaves, and five nodes stay on its stack. -/
theorem C34_fails (hp : parseXmssmtFast oid = some p) (ht : p.tree_height = 5) (h5 : 5 ≤ p.d) (pk0 sk0 : Bytes)
    (hpk : pk0.length = 4 + p.pk_bytes) (hsk : sk0.length = 4 + p.sk_bytes) (seed : Nat → Bytes)
    (hs : (seed p.n).length = 3 * p.n) :
    ∃ pk sk, xmssmtKeypairFast P pk0 sk0 oid seed = some (0, pk, sk) ∧
      ∀ cs : List Call, (∀ c ∈ cs, p.sig_bytes + c.msg.length ≤ c.sm.length) →
        (cs.length < 2 ^ 20 + 2 ^ 18 → ∃ os : List FastOut, signAllFast P .xmssmt sk cs = some os ∧ os.length = cs.length ∧
          ∀ o ∈ os, o.ret = 0 ∧ o.sk.length = sk0.length) ∧
        (2 ^ 20 + 2 ^ 18 ≤ cs.length → signAllFast P .xmssmt sk cs = none) := by
  obtain ⟨H, hH, hHl⟩ := C12_core_hash P _ oid p (Or.inr hp)
  obtain ⟨g, _, ho, _, _, _⟩ := parseFast_good (f := .xmssmt) hp
  obtain ⟨k, hv, _, _, sk, hskl, e, af⟩ := mix_keypair (x := none) hp hH pk0 sk0 hpk hsk seed hs (fun _ h => by cases h)
  refine ⟨_, _, e, ?_⟩
  intro cs hcs
  refine ⟨fun hl => ?_, fun hl => ?_⟩
  · obtain ⟨os, e2, hl2, hq⟩ := mix_history hp ho ht h5 (mt_d_le hp) hH hHl hv cs 0 sk af (by omega) hcs
    refine ⟨os, e2, hl2, ?_⟩
    intro o hmem
    obtain ⟨j, hj, hjo⟩ := List.getElem_of_mem hmem
    obtain ⟨a1, a2, _⟩ := hq j o (by rw [List.getElem?_eq_getElem hj, hjo])
    exact ⟨a1, by omega⟩
  · exact mix_history_none hp ho ht h5 (mt_d_le hp) hH hHl hv cs 0 sk af (by omega) (by omega) hcs

/-- A buffer of the secret key with a given node in the watched slot. -/
theorem watched_buffer (f : FastMt p) (h5 : 5 ≤ p.d) {y : Bytes} (hy : y.length = p.n) : ∃ b : Bytes, b.length = p.sk_bytes ∧
    ∃ st sg, deserializeStates p b = some (st, sg) ∧ (st[p.d + 3]?.bind fun s => s.auth[p.tree_height - 1]?) = some y := by
  have hth := f.th
  obtain ⟨st0, sg0, e, sh, _, _⟩ := deserialize_any (p := p) (List.replicate (fastSkBytes p) 0) (by simp)
  have hl := sh.states_len
  have hd : p.d + 3 < st0.length := by omega
  have shd := sh.states_mem _ (List.getElem_mem hd)
  have sh' : ExtShape p (st0.set (p.d + 3) { st0[p.d + 3] with auth := st0[p.d + 3].auth.set (p.tree_height - 1) y }) sg0 := by
    refine ⟨by rw [List.length_set]; exact hl, forall_mem_set sh.states_mem ?_, sh.sigs_len, sh.sigs_mem⟩
    exact { shd with auth_len := by rw [List.length_set]; exact shd.auth_len
                     auth_mem := forall_mem_set shd.auth_mem hy }
  have hds := deserialize_eq sh' (List.replicate (p.index_bytes + 4 * p.n) 0) [] (by simp)
  rw [List.append_nil] at hds
  refine ⟨_, ?_, _, _, hds, ?_⟩
  · rw [List.length_append, List.length_replicate, extBytes_length sh', f.sk, fastSkBytes]
    omega
  · rw [List.getElem?_map, List.getElem?_set_self hd]
    simp only [Option.map_some, Option.bind_some]
    exact List.getElem?_set_self (by rw [shd.auth_len]; omega)

/-- Behind the first layer the signature does not depend on the message. -/
theorem sign_tail (g : p.Good) (hH : ∀ x, (H x).length = p.n) (a b r c : Bytes) (idx : Nat) : ∃ tl : Bytes, ∀ m, ∃ hd : Bytes,
    hd.length = p.index_bytes + p.n + (p.wots_sig_bytes + p.tree_height * p.n) ∧ (suiteOf p H).sign a b r c idx m = hd ++ tl := by
  obtain ⟨k, hk⟩ : ∃ k, (suiteOf p H).d = k + 1 := ⟨p.d - 1, by have := g.d_pos; show p.d = _; omega⟩
  refine ⟨(suiteOf p H).signLayers a c k (0 + 1) (idx / 2 ^ (suiteOf p H).hp) ((suiteOf p H).treeRoot a c 0 (idx / 2 ^ (suiteOf p H).hp)), ?_⟩
  intro m
  refine ⟨Rfc.toByte idx p.index_bytes ++ (suiteOf p H).PRF b (Rfc.toByte idx 32) ++
    (((suiteOf p H).wotsSig a c ((suiteOf p H).digest ((suiteOf p H).PRF b (Rfc.toByte idx 32)) r idx m) 0 (idx / 2 ^ (suiteOf p H).hp)
      (idx % 2 ^ (suiteOf p H).hp)).flatten ++ ((suiteOf p H).authPath a c 0 (idx / 2 ^ (suiteOf p H).hp) (idx % 2 ^ (suiteOf p H).hp)).flatten), ?_, ?_⟩
  · simp only [List.length_append, toByte_length, wotsSig_flat_length g hH, authPath_flat_length g hH]
    have : ((suiteOf p H).PRF b (Rfc.toByte idx 32)).length = p.n := hH _
    rw [this, g.sig_wots]
  · rw [Rfc.Suite.sign, hk, Rfc.Suite.signLayers]
    simp only [List.append_assoc]
    rfl

/-- **C33 fails.**  For the OIDs with at least five layers of height five (XMSSMT-*_40/8_*, *_60/12_*) and every seed there is a
content of the secret key buffer before key generation such that the fast implementation returns a signed message for
index `2^20` that differs from that of the simple implementation: a node in the authentication path of layer 3 is whatever
was in the buffer before key generation.  This holds whatever the messages are. -/
theorem C33_fails (hp : parseXmssmt oid = some p) (hpf : parseXmssmtFast oid = some pf) (ht : p.tree_height = 5) (h5 : 5 ≤ p.d)
    (pk0 sk0 pkf0 : Bytes) (hpk : pk0.length = 4 + p.pk_bytes) (hsk : sk0.length = 4 + p.sk_bytes)
    (hpkf : pkf0.length = 4 + pf.pk_bytes) (seed : Nat → Bytes) (hs : (seed p.n).length = 3 * p.n) :
    ∃ skf0 : Bytes, skf0.length = 4 + pf.sk_bytes ∧
    ∃ pk sk skf, xmssmtKeypair P pk0 sk0 oid seed = some (0, pk, sk) ∧
      xmssmtKeypairFast P pkf0 skf0 oid seed = some (0, pk, skf) ∧
      ∀ cs, Sized p cs → 2 ^ 20 < cs.length → cs.length < 2 ^ 20 + 2 ^ 18 →
        ∃ (os : List SignOut) (ofs : List FastOut), signAll P .xmssmt sk cs = some os ∧ signAllFast P .xmssmt skf cs = some ofs ∧
        ∃ (o : SignOut) (o' : FastOut), os[2 ^ 20]? = some o ∧ ofs[2 ^ 20]? = some o' ∧ o.ret = 0 ∧ o'.ret = 0 ∧ o'.sm ≠ o.sm := by
  obtain ⟨pf', hpf', e⟩ := parse_both (f := .xmssmt) hp
  rw [show Family.parseFast .xmssmt oid = parseXmssmtFast oid from rfl, hpf] at hpf'
  cases hpf'
  obtain ⟨g, hskb, ho, H, hH⟩ := Family.facts (P := P) (f := .xmssmt) hp
  obtain ⟨g', _, ho', _, _, _⟩ := parseFast_good (f := .xmssmt) hpf
  have hHl : ∀ x, (H x).length = p.n := by
    obtain ⟨H', h, h'⟩ := C12_core_hash P _ oid p (Or.inr hp)
    rw [hH] at h; cases h; exact h'
  have hHf : coreHash P pf.func pf.n = some H := by rw [e]; exact hH
  have hHlf : ∀ x, (H x).length = pf.n := by rw [e]; exact hHl
  have hS : suiteOf pf H = suiteOf p H := by rw [e]; rfl
  have en : pf.n = p.n := by rw [e]
  have esig : pf.sig_bytes = p.sig_bytes := by rw [e]
  have eth : pf.tree_height = p.tree_height := by rw [e]
  have ed : pf.d = p.d := by rw [e]
  have eoff : badOff pf = badOff p := by rw [e]; rfl
  have hfh : 2 ^ 25 ≤ 2 ^ p.full_height := Nat.pow_le_pow_right (by omega) (by rw [← g.height, ht]; omega)
  have hsig := g.sig_eq'
  have hn := g.n_pos
  obtain ⟨k, hv, hh, hsd, ek⟩ := keypair_key (f := .xmssmt) hp hH pk0 sk0 hpk hsk seed hs
  obtain ⟨tl, htl⟩ := sign_tail g hHl k.skSeed k.skPrf k.root k.pubSeed (2 ^ 20)
  set good := (tl.drop (3 * (p.wots_sig_bytes + p.tree_height * p.n) - p.n)).take p.n with hgood
  obtain ⟨y, hyl, hyne⟩ : ∃ y : Bytes, y.length = p.n ∧ y ≠ good := by
    by_cases hc : good = List.replicate p.n 0
    · refine ⟨List.replicate p.n 1, by simp, ?_⟩
      rw [hc]
      intro heq
      have := congrArg (fun l => l[0]?) heq
      simp [hn] at this
    · exact ⟨List.replicate p.n 0, by simp, fun h => hc h.symm⟩
  obtain ⟨b, hbl, hbw⟩ := watched_buffer (parseFast_mt hpf) (by omega) (y := y) (by omega)
  refine ⟨List.replicate 4 0 ++ b, by rw [List.length_append, hbl]; rfl, ?_⟩
  obtain ⟨k', hv', hh', hsd', skf, _, ekf, af⟩ := mix_keypair (x := some y) hpf hHf pkf0 (List.replicate 4 0 ++ b) hpkf (by rw [List.length_append, hbl]; rfl) seed
    (by rw [en]; exact hs) (by
      intro y' hy'
      cases hy'
      rw [List.drop_left' (by simp)]
      exact hbw)
  have hkk : k' = k := by
    rw [en, hsd] at hsd'
    have l1 : k.skSeed.length = k'.skSeed.length := by rw [hv.skSeed, hv'.skSeed, en]
    have l2 : k.skPrf.length = k'.skPrf.length := by rw [hv.skPrf, hv'.skPrf, en]
    obtain ⟨a1, a2⟩ := List.append_inj hsd' (by simp [l1, l2])
    obtain ⟨a3, a4⟩ := List.append_inj a1 l1
    rw [Key.Honest] at hh hh'
    rw [hS, ← a3, ← a2] at hh'
    have a5 : k.root = k'.root := by rw [hh, hh']
    cases k; cases k'
    rw [Key.mk.injEq]
    exact ⟨a3.symm, a4.symm, a5.symm, a2.symm⟩
  subst hkk
  refine ⟨_, _, _, ek, ekf, ?_⟩
  intro cs hcs hlen hlen2
  have hcs' : ∀ c ∈ cs, pf.sig_bytes + c.msg.length ≤ c.sm.length := fun c hc => by rw [esig]; exact (hcs c hc).ge
  obtain ⟨ofs, e1, l1, h1⟩ := mix_history hpf ho' (by omega) (by omega) (mt_d_le hpf) hHf hHlf hv' cs 0 skf af (by omega) hcs'
  have e2 := signAll_eq (f := .xmssmt) hp hH cs 0 k' hv (by positivity) hcs
  have hj : 2 ^ 20 < ofs.length := by omega
  obtain ⟨b1, _, b3⟩ := h1 (2 ^ 20) ofs[2 ^ 20] (List.getElem?_eq_getElem hj)
  have b4 := b3 (by omega) y rfl
  refine ⟨_, ofs, e2, e1, _, _, by rw [List.getElem?_mapIdx, List.getElem?_eq_getElem hlen]; rfl, List.getElem?_eq_getElem hj, ?_, b1, ?_⟩
  · rw [stateAfter_lt _ (by omega)]
    simp only [outcome]
    rw [if_pos (by omega)]
  · rw [stateAfter_lt _ (by omega)]
    intro heq
    rw [heq] at b4
    simp only [outcome] at b4
    rw [if_pos (by omega)] at b4
    obtain ⟨hd, hdl, hde⟩ := htl cs[2 ^ 20].msg
    have hsl : hd.length + tl.length = p.sig_bytes := by
      rw [← List.length_append, ← hde]; exact sign_length g hHl _ _ _ _ _ _
    rw [eoff, en, hde, List.append_assoc] at b4
    apply hyne
    rw [← b4, hgood]
    have hw : p.n ≤ p.tree_height * p.n := by rw [ht]; omega
    rw [List.drop_append, List.drop_of_length_le (by unfold badOff; omega), List.nil_append, hdl,
      show badOff p - (p.index_bytes + p.n + (p.wots_sig_bytes + p.tree_height * p.n)) = 3 * (p.wots_sig_bytes + p.tree_height * p.n) - p.n by
        unfold badOff; omega]
    have hd4 : 4 * ((p.wots_len + p.tree_height) * p.n) ≤ p.d * ((p.wots_len + p.tree_height) * p.n) := Nat.mul_le_mul_right _ (by omega)
    have hww : (p.wots_len + p.tree_height) * p.n = p.wots_sig_bytes + p.tree_height * p.n := by rw [g.sig_wots]; ring
    rw [hww] at hsig hd4
    rw [List.drop_append_of_le_length (by omega), List.take_append_of_le_length (by rw [List.length_drop]; omega)]

-- XMSSMT-SHA2_40/8_256 and 60/12
example : ∃ p pf, parseXmssmt 5 = some p ∧ parseXmssmtFast 5 = some pf ∧ p.tree_height = 5 ∧ pf.tree_height = 5 ∧ p.d = 8 ∧ pf.d = 8 :=
  ⟨_, _, rfl, rfl, by decide⟩
example : ∃ p pf, parseXmssmt 8 = some p ∧ parseXmssmtFast 8 = some pf ∧ p.tree_height = 5 ∧ pf.tree_height = 5 ∧ p.d = 12 ∧ pf.d = 12 :=
  ⟨_, _, rfl, rfl, by decide⟩

end Xmss
