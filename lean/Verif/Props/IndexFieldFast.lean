import Verif.Props.IndexField
import Verif.Props.StrongForgery
import Verif.Props.HashInputsFast
import Verif.Props.CrashStale
import Verif.Props.MixedBuilds
/-
C80, fast implementation: the index field cannot be set without the traversal state.
-/
namespace Xmss

variable {P : Prims} {f : Family} {oid : Nat} {p ps : Params} {H : Bytes → Bytes}

/-! ### Specification -/

/-- The secret key buffer after a history of the fast implementation that began with `sk`. -/
def bufAfterFast (sk : Bytes) (outs : List FastOut) : Bytes := (outs.getLast?.map (·.sk)).getD sk

/-- The neighbours of the leaves `i` and `n` of the hypertree are different leaves with the same value. -/
def LeavesCoincide (S : Rfc.Suite) (k : Key) (i n : Nat) : Prop :=
  let nb := fun j => (j / 2 ^ S.hp, Rfc.Suite.sibling (j % 2 ^ S.hp))
  nb i ≠ nb n ∧
    S.leaf k.skSeed k.pubSeed 0 (nb i).1 (nb i).2 = S.leaf k.skSeed k.pubSeed 0 (nb n).1 (nb n).2

/-! ### Lemmas -/

namespace IndexField
open HashCalls Sched HashInputs

theorem sibling_inj {a b : Nat} (h : Rfc.Suite.sibling a = Rfc.Suite.sibling b) : a = b := by
  unfold Rfc.Suite.sibling at h
  split at h <;> split at h <;> omega

theorem neighbours_ne {h i n : Nat} (hne : i ≠ n) :
    (i / 2 ^ h, Rfc.Suite.sibling (i % 2 ^ h)) ≠ (n / 2 ^ h, Rfc.Suite.sibling (n % 2 ^ h)) := by
  intro e
  obtain ⟨e1, e2⟩ := Prod.mk.inj e
  have e2 := sibling_inj e2
  apply hne
  rw [← Nat.div_add_mod i (2 ^ h), ← Nat.div_add_mod n (2 ^ h), e1, e2]

/-- Behind the one-time signature an honest signature goes on with the neighbour of the leaf. -/
theorem sign_split (g : p.Good) (hH : ∀ x, (H x).length = p.n) (hth : 0 < p.tree_height) (k : Key) (idx : Nat) (m : Bytes) :
    ∃ rest, (suiteOf p H).sign k.skSeed k.skPrf k.root k.pubSeed idx m = sigHead p H k idx m ++
      ((suiteOf p H).leaf k.skSeed k.pubSeed 0 (idx / 2 ^ p.tree_height) (Rfc.Suite.sibling (idx % 2 ^ p.tree_height)) ++ rest) := by
  have hd := g.d_pos
  have hhp := g.hp_eq H
  rw [Rfc.Suite.sign]
  obtain ⟨d, hd'⟩ : ∃ d, (suiteOf p H).d = d + 1 := ⟨(suiteOf p H).d - 1, by show p.d = p.d - 1 + 1; omega⟩
  obtain ⟨q, hq⟩ : ∃ q, (suiteOf p H).hp = q + 1 := ⟨(suiteOf p H).hp - 1, by rw [hhp]; omega⟩
  rw [hd', Rfc.Suite.signLayers, sigHead]
  have ha : ∀ t l, ((suiteOf p H).authPath k.skSeed k.pubSeed 0 t l).flatten =
      (suiteOf p H).leaf k.skSeed k.pubSeed 0 t (Rfc.Suite.sibling l) ++
        (((suiteOf p H).authPath k.skSeed k.pubSeed 0 t l).tail).flatten := by
    intro t l
    rw [Rfc.Suite.authPath, hq, List.range_succ_eq_map]
    simp only [List.map_cons, List.flatten_cons, List.tail_cons, pow_zero, Nat.div_one]
    rfl
  rw [ha, hhp]
  refine ⟨((suiteOf p H).authPath k.skSeed k.pubSeed 0 (idx / 2 ^ p.tree_height) (idx % 2 ^ p.tree_height)).tail.flatten ++
    (suiteOf p H).signLayers k.skSeed k.pubSeed d (0 + 1) (idx / 2 ^ p.tree_height)
      ((suiteOf p H).treeRoot k.skSeed k.pubSeed 0 (idx / 2 ^ p.tree_height)), ?_⟩
  simp only [List.append_assoc]
  rfl

/-- What a call of the fast implementation writes behind the one-time signature depends on the traversal state only. -/
theorem fast_tail (hp : f.parseFast oid = some p) (hH : coreHash P p.func p.n = some H) (hHl : ∀ x, (H x).length = p.n) (k : Key)
    (hk : k.Valid p) {st : List BdsState} {sg : List Bytes} (sh : ExtShape p st sg) :
    ∃ rest : Bytes, ∀ (idx : Nat), idx < 2 ^ p.full_height - 1 → ∀ (c : Call), p.sig_bytes + c.msg.length ≤ c.sm.length → ∀ o : FastOut,
      f.signFast P (Rfc.toByte oid 4 ++ k.fast p idx st sg) c.sm c.smlen0 c.msg = some o →
      o.ret = 0 ∧ o.smlen = p.sig_bytes + c.msg.length ∧
        o.sm = sigHead p H k idx c.msg ++ rest ++ c.msg ++ c.sm.drop (p.sig_bytes + c.msg.length) := by
  obtain ⟨g, hskb, ho, _, _, _⟩ := parseFast_good hp
  cases f with
  | xmss =>
    have f1 := parseFast_fast1 hp
    obtain ⟨s, rfl⟩ : ∃ s, st = [s] := by
      have := sh.states_len
      rw [f1.d] at this
      exact List.length_eq_one_iff.mp this
    obtain rfl : sg = [] := by
      have := sh.sigs_len
      rw [f1.d] at this
      exact List.length_eq_zero_iff.mp this
    have s1 : Shape p s := sh.states_mem s (List.mem_singleton.mpr rfl)
    refine ⟨s.auth.flatten, fun idx hi c hc o h => ?_⟩
    obtain ⟨o', ho', rfl⟩ := apiSignFast_inv (parse := parseXmssFast) (core := fastXmssSign) hp ho hH h
    obtain ⟨a1, a2, a3, -⟩ := fastXmssSign_any f1 hHl hk hi s1 c.sm c.smlen0 c.msg hc ho'
    exact ⟨a1, a2, a3⟩
  | xmssmt =>
    have f1 := parseFast_mt hp
    refine ⟨(st.getD 0 default).auth.flatten ++ storedLayers st sg (p.d - 1) 1, fun idx hi c hc o h => ?_⟩
    obtain ⟨o', ho', rfl⟩ := apiSignFast_inv (parse := parseXmssmtFast) (core := fastXmssmtSign) hp ho hH h
    obtain ⟨a1, a2, a3, -⟩ := fastXmssmtSign_any f1 hHl hk hi sh c.sm c.smlen0 c.msg hc ho'
    exact ⟨a1, a2, a3⟩

/-- One call on a key after `n` signatures. -/
theorem afterF_step (hp : f.parseFast oid = some p) (hH : coreHash P p.func p.n = some H) (hHl : ∀ x, (H x).length = p.n)
    {k : Key} (hk : k.Valid p) {n : Nat} {body : Bytes} (af : AfterF f p H k n body) (hn : n + 1 < 2 ^ p.full_height)
    (h1 : f = .xmssmt → n + 1 < B p.tree_height (p.tree_height / 2 + 2)) (c : Call)
    (hc : p.sig_bytes + c.msg.length ≤ c.sm.length) :
    ∃ o : FastOut, f.signFast P (Rfc.toByte oid 4 ++ body) c.sm c.smlen0 c.msg = some { o with sk := Rfc.toByte oid 4 ++ o.sk } ∧
      AfterF f p H k (n + 1) o.sk ∧ o.sm = (suiteOf p H).sign k.skSeed k.skPrf k.root k.pubSeed n c.msg ++ c.msg ++
        c.sm.drop (p.sig_bytes + c.msg.length) := by
  obtain ⟨g, _, ho, _, _, _⟩ := parseFast_good hp
  cases f with
  | xmss =>
    have hu : min p.insts (p.tree_height - 2) ≤ 2 * (p.insts / 2) := by unfold Params.insts; omega
    obtain ⟨o, e, a, post⟩ := After1.step (parseFast_fast1 hp) hu hHl hk af c hc
    exact ⟨o, apiSignFast_eq (parse := parseXmssFast) hp ho hH e, a, (post.ok hn).2.2.1⟩
  | xmssmt =>
    obtain ⟨o, e, a, post⟩ := AfterMt.step (parseFast_mt hp) hHl hk af (fun _ => h1 rfl) (fun h => by omega) c hc
    exact ⟨o, apiSignFast_eq (parse := parseXmssmtFast) hp ho hH e, a, (post.ok hn).2.2.1⟩

/-- The key after a history. -/
theorem afterF_all (hp : f.parseFast oid = some p) (hH : coreHash P p.func p.n = some H) (hHl : ∀ x, (H x).length = p.n)
    {k : Key} (hk : k.Valid p) : ∀ (cs : List Call) (n : Nat) (body : Bytes), AfterF f p H k n body → n + cs.length < 2 ^ p.full_height →
    (f = .xmssmt → n + cs.length < B p.tree_height (p.tree_height / 2 + 2)) →
    (∀ c ∈ cs, p.sig_bytes + c.msg.length ≤ c.sm.length) →
    ∃ (os : List FastOut) (body' : Bytes), signAllFast P f (Rfc.toByte oid 4 ++ body) cs = some os ∧
      bufAfterFast (Rfc.toByte oid 4 ++ body) os = Rfc.toByte oid 4 ++ body' ∧ AfterF f p H k (n + cs.length) body'
  | [], n, body, af, _, _, _ => ⟨[], body, rfl, rfl, af⟩
  | c :: cs, n, body, af, h1, h2, hs => by
    simp only [List.length_cons] at h1 h2 ⊢
    obtain ⟨o, e, a, _⟩ := afterF_step hp hH hHl hk af (by omega) (fun hf => by have := h2 hf; omega) c (hs c (by simp))
    obtain ⟨os, body', r1, r2, r3⟩ := afterF_all hp hH hHl hk cs (n + 1) o.sk a (by omega) (fun hf => by have := h2 hf; omega)
      fun c hc => hs c (by simp [hc])
    refine ⟨{ o with sk := Rfc.toByte oid 4 ++ o.sk } :: os, body', ?_, ?_, by rwa [show n + (cs.length + 1) = n + 1 + cs.length by omega]⟩
    · rw [signAllFast, e]
      simp only [Option.bind_eq_bind, Option.bind_some, r1]
    · rw [← r2, bufAfterFast, bufAfterFast, List.getLast?_cons]
      cases os.getLast? <;> rfl

theorem setIndex_fast (k : Key) (i j : Nat) (st : List BdsState) (sg : List Bytes) :
    setIndex p i (Rfc.toByte oid 4 ++ k.fast p j st sg) = Rfc.toByte oid 4 ++ k.fast p i st sg := by
  have h4 : (Rfc.toByte oid 4).length = 4 := toByte_length _ _
  rw [setIndex, Key.fast, Key.fast, skHead_mat, skHead_mat]
  simp only [List.append_assoc]
  rw [List.take_left' h4, ← List.drop_drop, List.drop_left' h4, List.drop_left' (toByte_length _ _)]

/-- Signing with an even index and the traversal state of any other index runs through. -/
theorem even_call (f1 : Fast1 p) (hH : ∀ x, (H x).length = p.n) {k : Key} (hk : k.Valid p) {i n : Nat} (he : i % 2 = 0)
    (hi : i < 2 ^ p.full_height - 1) {s : BdsState} (r : Ready p ((suiteOf p H).node k.skSeed k.pubSeed 0 0) [] n s)
    (sm : Bytes) (l0 : Nat) (m : Bytes) (hsm : p.sig_bytes + m.length ≤ sm.length) :
    ∃ o, fastXmssSign H p (k.fast p i [s] []) sm l0 m = some o := by
  have g := f1.good
  have hfull := f1.full
  have hi1 : i + 1 < 2 ^ p.tree_height := by rw [← hfull]; omega
  have ctx := treeCtx_suite g hH k.skSeed k.pubSeed 0 0
  have r0 := r.with_leaves 0
  obtain ⟨s', w, q, e⟩ := fastXmssSign_gen f1 hH hk (idx := i) hi r.shape (Shape p) (fun _ h => h)
    (by
      intro a ha
      have sh0 := r0.shape
      obtain ⟨pr, seg, ti, _, _⟩ := r0
      obtain ⟨s1, e1, sh1, a1, a2, a3, a4, a5, _, _, tau, mm, ht, hth⟩ := bdsRound_safe ctx hH g.th_lt f1.k ha (φ := i) sh0 hi1
      have htau : tau = 0 := by
        cases tau with
        | zero => rfl
        | succ t => rw [pow_succ] at ht; have : 2 ^ t * 2 * (2 * mm + 1) = 2 * (2 ^ t * (2 * mm + 1)) := by ring
                    omega
      subst htau
      have w1 : WorkInv p ((suiteOf p H).node k.skSeed k.pubSeed 0 0) [] n pr seg s1 :=
        { shape := sh1
          inst := fun i hi => by
            obtain ⟨t, h1, h2⟩ := ti.work.inst i hi
            exact ⟨t, by rw [hth i t h1, if_neg (by omega)], h2⟩
          nested := ti.work.nested
          stack := ⟨by rw [a3]; exact ti.work.stack.off, by rw [a1]; exact ti.work.stack.stack, by rw [a2]; exact ti.work.stack.levels⟩
          base_len := ti.work.base_len
          base_ge := ti.work.base_ge }
      obtain ⟨c, pr', seg', s2, e2, _, w2, _⟩ := bdsTreehashUpdate_eq ctx g.th_lt ha (p.insts / 2) w1
      exact ⟨s1, s2, _, e1, e2, w2.shape⟩) sm l0 m hsm
  exact ⟨_, e⟩

end IndexField
open IndexField HashCalls Sched HashInputs

/-- **C80 is false for the fast implementation.**  Take the key after any number `n` of signatures (within the scope of C49) and write
another index `i` into its index field.  Every sign call on it that is not undefined behaviour returns 0 and outputs a signature with
index `i`; `open` rejects it, unless two different leaves of the hypertree of this key have the same value or the signature
contains one of the explicit breaks of the hash function of C58.  For XMSS and even `i` the call is never undefined. -/
theorem C80_fails_fast (hps : f.parse oid = some ps) (hp : f.parseFast oid = some p) (hH : coreHash P p.func p.n = some H) (pk0 sk0 : Bytes)
    (hpk : pk0.length = 4 + p.pk_bytes) (hsk : sk0.length = 4 + p.sk_bytes) (seed : Nat → Bytes)
    (hs : (seed p.n).length = 3 * p.n) :
    ∃ (k : Key) (sk : Bytes), k.Valid p ∧ k.Honest (suiteOf p H) ∧ f.keypairFast P pk0 sk0 oid seed = some (0, k.pk oid, sk) ∧
      ∀ cs : List Call, (∀ c ∈ cs, p.sig_bytes + c.msg.length ≤ c.sm.length) → cs.length + 1 < 2 ^ p.full_height →
        (p.d ≤ p.tree_height / 2 + 2 ∨ cs.length + 1 < 2 ^ (p.tree_height * (p.tree_height / 2 + 2))) →
        ∃ outs : List FastOut, signAllFast P f sk cs = some outs ∧
          ∀ (i : Nat) (c : Call), i + 1 < 2 ^ p.full_height → i ≠ cs.length → p.sig_bytes + c.msg.length ≤ c.sm.length →
            (f = .xmss → i % 2 = 0 → (f.signFast P (setIndex p i (bufAfterFast sk outs)) c.sm c.smlen0 c.msg).isSome) ∧
            ∀ o, f.signFast P (setIndex p i (bufAfterFast sk outs)) c.sm c.smlen0 c.msg = some o →
              o.ret = 0 ∧ o.smlen = p.sig_bytes + c.msg.length ∧ o.sm.take p.index_bytes = Rfc.toByte i p.index_bytes ∧
              ∀ (m : Bytes) (l0 : Nat), p.sig_bytes + c.msg.length < 2 ^ 64 → p.sig_bytes + c.msg.length ≤ m.length →
                (∃ r, f.signOpen P m l0 (o.sm.take o.smlen) o.smlen (k.pk oid) = some r ∧ r.ret = -1) ∨
                LeavesCoincide (suiteOf p H) k i cs.length ∨
                Broken p H k (List.replicate (i + 1) c.msg) (o.sm.take p.sig_bytes) c.msg := by
  obtain ⟨pf', hpf', e⟩ := parse_both hps
  rw [hp] at hpf'
  cases hpf'
  obtain ⟨g, _, ho, _, _, _⟩ := parseFast_good hp
  have hHl : ∀ x, (H x).length = p.n := by
    obtain ⟨H', h, h'⟩ := Family.hashFast (P := P) hp
    rw [hH] at h; cases h; exact h'
  have hHs : coreHash P ps.func ps.n = some H := by rw [e] at hH; exact hH
  have hS : suiteOf p H = suiteOf ps H := by rw [e]; rfl
  have en : p.n = ps.n := by rw [e]
  have esig : p.sig_bytes = ps.sig_bytes := by rw [e]
  have eib : p.index_bytes = ps.index_bytes := by rw [e]
  have efh : p.full_height = ps.full_height := by rw [e]
  have ed : p.d = ps.d := by rw [e]
  obtain ⟨k, st, sg, hv, hh, _, ek, sh, af, _⟩ := keygen_one hp hH hHl pk0 sk0 hpk hsk seed hs
  have hvs : k.Valid ps := by rw [e] at hv; exact ⟨hv.1, hv.2, hv.3, hv.4⟩
  refine ⟨k, _, hv, hh, ek, ?_⟩
  intro cs hcs hlen hlim
  have hfit := g.idx_fits
  have hlim' : f = .xmssmt → cs.length + 1 < B p.tree_height (p.tree_height / 2 + 2) := by
    intro _
    rcases hlim with h | h
    · have : 2 ^ p.full_height ≤ B p.tree_height (p.tree_height / 2 + 2) := by
        rw [← g.height]; exact Nat.pow_le_pow_right (by omega) (Nat.mul_le_mul_left _ h)
      omega
    · exact h
  obtain ⟨outs, body', e1, e2, af'⟩ := afterF_all hp hH hHl hv cs 0 _ af (by omega) (fun hf => by have := hlim' hf; omega) hcs
  rw [Nat.zero_add] at af'
  refine ⟨outs, e1, ?_⟩
  intro i c hi hne hc
  obtain ⟨st', sg', sh', rfl, hr⟩ := afterF_states hp hHl af' (by omega) (fun hf _ => hlim' hf)
  rw [e2, setIndex_fast]
  refine ⟨?_, ?_⟩
  · rintro rfl heven
    obtain ⟨s, hst, r⟩ := hr (by omega)
    obtain rfl : sg' = [] := by
      have := sh'.sigs_len; rw [(parseFast_fast1 hp).d] at this
      exact List.eq_nil_of_length_eq_zero this
    subst hst
    obtain ⟨o, ho'⟩ := even_call (parseFast_fast1 hp) hHl hv heven (by omega) r c.sm c.smlen0 c.msg hc
    have : Family.xmss.signFast P (Rfc.toByte oid 4 ++ k.fast p i [s] []) c.sm c.smlen0 c.msg = _ := apiSignFast_eq hp ho hH ho'
    rw [this]
    rfl
  intro o ho'
  obtain ⟨rest, hrest⟩ := fast_tail hp hH hHl k hv sh'
  obtain ⟨c1, c2, c3⟩ := hrest i (by omega) c hc o ho'
  -- the call with the right index
  obtain ⟨oh, eh, _, smh⟩ := afterF_step hp hH hHl hv af' hlen hlim' c hc
  obtain ⟨_, _, c3'⟩ := hrest cs.length (by omega) c hc _ eh
  have hthp : 0 < p.tree_height := g.th_pos
  obtain ⟨rn, hrn⟩ := sign_split g hHl hthp k cs.length c.msg
  obtain ⟨ri, hri⟩ := sign_split g hHl hthp k i c.msg
  have hsl := fun j => sign_length g hHl k.skSeed k.skPrf k.root k.pubSeed j c.msg
  have hrl : rest = (suiteOf p H).leaf k.skSeed k.pubSeed 0 (cs.length / 2 ^ p.tree_height)
      (Rfc.Suite.sibling (cs.length % 2 ^ p.tree_height)) ++ rn := by
    have h := smh.symm.trans c3'
    rw [hrn] at h
    simp only [List.append_assoc] at h
    have h := List.append_cancel_left h
    simp only [← List.append_assoc] at h
    have h := List.append_cancel_right h
    exact (List.append_cancel_right h).symm
  set sig := sigHead p H k i c.msg ++ rest with hsig
  have hsiglen : sig.length = p.sig_bytes := by
    have h1 := hsl cs.length
    rw [hrn, List.length_append, ← hrl] at h1
    rw [hsig, List.length_append]
    rw [sigHead_length g hHl] at h1 ⊢
    exact h1
  have htake : o.sm.take p.sig_bytes = sig := by
    rw [c3, List.append_assoc sig]; exact List.take_left' hsiglen
  have htake2 : o.sm.take o.smlen = sig ++ c.msg := by
    rw [c3, c2]; exact List.take_left' (by rw [List.length_append, hsiglen])
  have hix : sig.take p.index_bytes = Rfc.toByte i p.index_bytes := by
    rw [hsig, sigHead]
    simp only [List.append_assoc]
    exact List.take_left' (toByte_length _ _)
  have hib : p.index_bytes ≤ p.sig_bytes := by
    have h := congrArg List.length hix
    rw [List.length_take, toByte_length, hsiglen] at h
    omega
  refine ⟨c1, c2, ?_, ?_⟩
  · rw [← hix, ← htake, List.take_take, Nat.min_eq_left hib]
  intro m l0 h64 hm
  rw [htake, htake2, c2]
  rw [esig] at hsiglen h64 hm ⊢
  obtain ⟨r, h1, h2, _⟩ := C23_open_is_rfc hps hHs k hvs.root hvs.pubSeed sig c.msg m l0 hsiglen h64 hm
  rcases h2 with h2 | h2
  · right
    by_cases heq : sig = (suiteOf p H).sign k.skSeed k.skPrf k.root k.pubSeed i c.msg
    · left
      rw [hsig, hri, hrl] at heq
      have heq := List.append_cancel_left heq
      have hl : ∀ t l, ((suiteOf p H).leaf k.skSeed k.pubSeed 0 t l).length = p.n := fun t l => node_length g hHl _ _ _ _ 0 _
      have heq := (List.append_inj heq (by rw [hl, hl])).1
      unfold LeavesCoincide
      rw [g.hp_eq]
      exact ⟨neighbours_ne hne, heq.symm⟩
    · right
      have hix' : Rfc.toNat (sig.take ps.index_bytes) = i := by
        rw [← eib, hix, toNat_toByte, Nat.mod_eq_of_lt (by omega)]
      have := strong_reduction hps hHs k hvs (hS ▸ hh) (List.replicate (i + 1) c) (by rw [List.length_replicate, ← efh]; omega)
        sig c.msg m l0 r hsiglen h64 hm h1 h2 (by
          intro c' hc' hcontra
          rw [hix', List.getElem?_replicate, if_pos (by omega), Option.some.injEq] at hc'
          subst hc'
          rw [hix', ← hS] at hcontra
          exact heq (List.append_cancel_right hcontra))
      rw [List.map_replicate] at this
      unfold Broken at this ⊢
      rw [hS, eib, en, ed, efh]
      exact this
  · exact Or.inl ⟨r, h1, h2⟩

/-- The hypotheses are met by XMSS-SHA2_10_256: a key after three signatures, into which the index 0 is written back. -/
example (P : Prims) : ∃ ps p H, Family.xmss.parse 1 = some ps ∧ Family.xmss.parseFast 1 = some p ∧ coreHash P p.func p.n = some H ∧
    let c : Call := ⟨List.replicate (p.sig_bytes + 3) 0, 0, [1, 2, 3]⟩
    let cs := [c, c, c]
    (∀ c ∈ cs, p.sig_bytes + c.msg.length ≤ c.sm.length) ∧ cs.length + 1 < 2 ^ p.full_height ∧ p.d ≤ p.tree_height / 2 + 2 ∧
      0 ≠ cs.length := by
  obtain ⟨ps, hps⟩ : ∃ ps, Family.xmss.parse 1 = some ps := ⟨_, rfl⟩
  obtain ⟨p, hp, he, hd, hth⟩ : ∃ p, Family.xmss.parseFast 1 = some p ∧ p.full_height = 10 ∧ p.d = 1 ∧ p.tree_height = 10 := by
    refine ⟨_, rfl, ?_⟩
    decide +kernel
  obtain ⟨H, hH, _⟩ := Family.hashFast (P := P) hp
  refine ⟨ps, p, H, hps, hp, hH, ?_, by rw [he]; exact (by decide : 3 + 1 < 2 ^ 10), by rw [hd]; omega, by simp⟩
  intro c hc
  simp only [List.mem_cons, List.not_mem_nil, or_false, or_self] at hc
  subst hc
  simp

end Xmss
