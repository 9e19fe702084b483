import Verif.Props.Fast
import Verif.Proof.MtLast
/-
C33–C35: the fast (BDS) implementation with several layers.
-/
namespace Xmss
open Sched

variable {P : Prims} {oid : Nat} {p pf : Params} {H : Bytes → Bytes}

theorem parseFast_mt (hp : parseXmssmtFast oid = some p) : FastMt p := by
  obtain ⟨g, h1, _, h2, _, _⟩ := parseFast_good (f := .xmssmt) hp
  obtain ⟨e, he, _, rfl⟩ := xmssmt_parse_entry hp
  have h3 : ∀ e ∈ Registry.xmssmt, 2 ≤ e.d ∧ 4 ≤ e.h / e.d := by decide +kernel
  exact ⟨g, (h3 e he).1, (h3 e he).2, h2, h1⟩

/-! ### Histories -/

/-- A secret key of the fast multi-tree implementation after `n` signatures with key `k`. -/
def AfterMt (p : Params) (H : Bytes → Bytes) (k : Key) (n : Nat) (sk : Bytes) : Prop :=
  if n < 2 ^ p.full_height then ∃ states sigs, MtInv H p k.skSeed k.pubSeed (fun _ => none) n states sigs ∧ sk = k.fast p n states sigs
  else 2 ^ p.full_height < 256 ^ p.index_bytes → ∃ ib body : Bytes, ib.length = p.index_bytes ∧
    p.index_bytes + body.length = p.sk_bytes ∧ 2 ^ p.full_height ≤ Rfc.toNat ib ∧ sk = ib ++ body

/-- What call number `n` (from 0) of a history does. -/
structure PostMt (p : Params) (H : Bytes → Bytes) (k : Key) (n : Nat) (c : Call) (o : FastOut) : Prop where
  ok : n + 1 < 2 ^ p.full_height → o.ret = 0 ∧ o.smlen = p.sig_bytes + c.msg.length ∧
    o.sm = (suiteOf p H).sign k.skSeed k.skPrf k.root k.pubSeed n c.msg ++ c.msg ++ c.sm.drop (p.sig_bytes + c.msg.length) ∧
    o.sk.take (p.index_bytes + 4 * p.n) =
      Rfc.toByte (n + 1) p.index_bytes ++ k.skSeed ++ k.skPrf ++ k.root ++ k.pubSeed
  last : n + 1 = 2 ^ p.full_height → o.ret = 0 ∧ o.smlen = p.sig_bytes + c.msg.length ∧ 
    o.sm = fastLastSig p H c.msg ++ c.msg ++ c.sm.drop (p.sig_bytes + c.msg.length) ∧
    o.sk.take (p.index_bytes + 4 * p.n) = Rfc.toByte (n + 1) p.index_bytes ++ List.replicate (4 * p.n) 0
  over : 2 ^ p.full_height ≤ n → o.ret = -2 ∧ o.sm = c.sm ∧ o.smlen = c.smlen0 ∧
    o.sk = List.replicate p.index_bytes 0xFF ++ List.replicate (p.sk_bytes - p.index_bytes) 0
  size : o.sk.length = p.sk_bytes
  idle : 2 ^ p.full_height ≤ n + 1 → o.leaves = 0
  work : ¬ B p.tree_height (p.tree_height / 2 + 1) ∣ n + 1 → o.leaves ≤ p.tree_height / 2 + 2
  most : B p.tree_height (p.tree_height / 2 + 1) ∣ n + 1 → o.leaves ≤ 2 ^ (p.tree_height - 2) + (p.d - 2 - p.tree_height / 2)
  busy : n + 1 < 2 ^ p.full_height → ∀ j, 0 < j → j < p.d → B p.tree_height j ∣ n + 1 → p.tree_height / 2 < j →
    ∃ A, AllDone p.tree_height A ∧
      remWork p.tree_height (restart p.tree_height p.tree_height (leafAt p.tree_height n j + 1) A) + 1 +
        (if p.tree_height ≤ 5 ∧ p.d ≤ 100 ∧ j = p.tree_height / 2 + 1 then p.d - 1 - j else 0) ≤ o.leaves

theorem AfterMt.step (f : FastMt p) (hH : ∀ x, (H x).length = p.n) {k : Key} (hk : k.Valid p) {n : Nat} {sk : Bytes}
    (a : AfterMt p H k n sk) (h1 : n + 1 < 2 ^ p.full_height → n + 1 < B p.tree_height (p.tree_height / 2 + 2))
    (h2 : 2 ^ p.full_height ≤ n → 2 ^ p.full_height < 256 ^ p.index_bytes) (c : Call)
    (hc : p.sig_bytes + c.msg.length ≤ c.sm.length) :
    ∃ o, fastXmssmtSign H p sk c.sm c.smlen0 c.msg = some o ∧ AfterMt p H k (n + 1) o.sk ∧ PostMt p H k n c o := by
  have g := f.good
  have hins := f.insts
  have hpos : 0 < 2 ^ p.full_height := Nat.two_pow_pos _
  unfold AfterMt at a
  by_cases h3 : n < 2 ^ p.full_height
  · rw [if_pos h3] at a
    obtain ⟨states, sigs, mi, rfl⟩ := a
    by_cases h4 : n < 2 ^ p.full_height - 1
    · obtain ⟨states', sigs', w, mi', hw, hb, e⟩ := fastXmssmtSign_step f hH hk h4 (by rw [hins]; exact h1 (by omega)) (fun _ _ => rfl) mi c.sm c.smlen0 c.msg hc
      rw [hins] at hw hb
      refine ⟨_, e, ?_, ?_⟩
      · rw [AfterMt, if_pos (by omega)]
        exact ⟨states', sigs', mi', rfl⟩
      · exact ⟨fun _ => ⟨rfl, rfl, rfl, Key.fast_take hk _ _ _⟩, fun h => by omega, fun h => by omega,
          Key.fastmt_length f hk (mi'.ext g hH), fun h => by omega, hw.1, hw.2, fun _ => hb⟩
    · have h5 : n = 2 ^ p.full_height - 1 := by omega
      subst h5
      have hz : (Key.zero p).Valid p := Key.zero_valid p
      have e1 : 2 ^ p.full_height - 1 + 1 = 2 ^ p.full_height := by omega
      obtain ⟨states', sigs', sm', sh', hl, e⟩ := fastXmssmtSign_last f hH hk (mi.ext g hH) c.sm c.smlen0 c.msg hc
      have hlen := Key.fastmt_length f hz (idx := 2 ^ p.full_height) sh'
      refine ⟨_, e, ?_, ?_⟩
      · rw [AfterMt, if_neg (by omega)]
        intro hlt
        refine ⟨Rfc.toByte (2 ^ p.full_height) p.index_bytes, List.replicate (4 * p.n) 0 ++ extBytes states' sigs', toByte_length _ _, ?_, ?_, ?_⟩
        · rw [List.length_append, List.length_replicate, extBytes_length sh', f.sk, fastSkBytes]
          omega
        · rw [toNat_toByte, Nat.mod_eq_of_lt hlt]
        · rw [← zero4]
          simp [Key.fast, skHead]
      · refine ⟨fun h => by omega, fun _ => ⟨rfl, rfl, hl, ?_⟩, fun h => by omega, hlen, fun _ => rfl, fun _ => Nat.zero_le _, fun _ => Nat.zero_le _, fun h => by omega⟩
        show ((Key.zero p).fast p (2 ^ p.full_height) states' sigs').take _ = _
        rw [Key.fast_take hz, ← zero4, e1]
        simp
  · rw [if_neg h3] at a
    obtain ⟨ib, body, hib, hb, hi, rfl⟩ := a (h2 (by omega))
    have e := fastXmssmtSign_exhausted (H := H) f hib hb hi c.sm c.smlen0 c.msg
    refine ⟨_, e, ?_, ?_⟩
    · rw [AfterMt, if_neg (by omega)]
      intro hlt
      refine ⟨_, _, List.length_replicate, ?_, ?_, rfl⟩
      · rw [List.length_replicate, hb]
      · rw [toByte_ff, toNat_toByte]
        have : 0 < 256 ^ p.index_bytes := by positivity
        rw [Nat.mod_eq_of_lt (by omega)]
        omega
    · refine ⟨fun h => by omega, fun h => by omega, fun _ => ⟨rfl, rfl, rfl, ?_⟩, ?_, fun _ => rfl, fun _ => Nat.zero_le _, fun _ => Nat.zero_le _, fun h => by omega⟩
      · rw [show body.length = p.sk_bytes - p.index_bytes by omega]
      · simp only [List.length_append, List.length_replicate]; exact hb

/-- Histories of the API. -/
theorem signAllFast_mt (hp : parseXmssmtFast oid = some p) (ho : oid < 2 ^ 8) (hH : coreHash P p.func p.n = some H)
    (hHl : ∀ x, (H x).length = p.n) {k : Key} (hk : k.Valid p) : ∀ (cs : List Call) (n : Nat) (sk : Bytes), AfterMt p H k n sk →
    (∀ j < cs.length, n + j + 1 < 2 ^ p.full_height → n + j + 1 < B p.tree_height (p.tree_height / 2 + 2)) →
    (∀ j < cs.length, 2 ^ p.full_height ≤ n + j → 2 ^ p.full_height < 256 ^ p.index_bytes) →
    (∀ c ∈ cs, p.sig_bytes + c.msg.length ≤ c.sm.length) →
    ∃ os : List FastOut, signAllFast P .xmssmt (Rfc.toByte oid 4 ++ sk) cs = some (os.map fun o => { o with sk := Rfc.toByte oid 4 ++ o.sk }) ∧
      os.length = cs.length ∧ ∀ j c, cs[j]? = some c → ∃ o, os[j]? = some o ∧ PostMt p H k (n + j) c o := by
  have f := parseFast_mt hp
  intro cs
  induction cs with
  | nil => intro n sk _ _ _ _; exact ⟨[], rfl, rfl, by simp⟩
  | cons c cs ih =>
    intro n sk a h1 h2 hs
    obtain ⟨o, e, a', ho'⟩ := a.step f hHl hk (by simpa using h1 0 (by simp)) (by simpa using h2 0 (by simp)) c (hs c (by simp))
    obtain ⟨os, e2, hl, hp2⟩ := ih (n + 1) o.sk a'
      (fun j hj h => by rw [show n + 1 + j = n + (j + 1) by omega] at h ⊢; exact h1 (j + 1) (by simp; omega) h)
      (fun j hj h => h2 (j + 1) (by simp; omega) (by omega)) fun c' h' => hs c' (by simp [h'])
    refine ⟨o :: os, ?_, by simp [hl], ?_⟩
    · rw [signAllFast, show Family.signFast P Family.xmssmt = apiSignFast P parseXmssmtFast fastXmssmtSign from rfl,
        apiSignFast_eq hp ho hH e]
      simp only [Option.bind_eq_bind, Option.bind_some, e2, List.map_cons]
    · intro j c' hj
      cases j with
      | zero =>
        rw [List.getElem?_cons_zero] at hj
        cases hj
        exact ⟨o, rfl, ho'⟩
      | succ j =>
        rw [List.getElem?_cons_succ] at hj
        obtain ⟨o', h1, h2⟩ := hp2 j c' hj
        exact ⟨o', by simpa using h1, by rw [show n + (j + 1) = n + 1 + j by omega]; exact h2⟩

/-- A key pair of the fast multi-tree implementation and its histories, in terms of RFC 8391. -/
theorem fast_xmssmt_history (hp : parseXmssmtFast oid = some p) (hH : coreHash P p.func p.n = some H) (pk0 sk0 : Bytes)
    (hpk : pk0.length = 4 + p.pk_bytes) (hsk : sk0.length = 4 + p.sk_bytes) (seed : Nat → Bytes)
    (hs : (seed p.n).length = 3 * p.n) : ∃ k : Key, k.Valid p ∧ k.Honest (suiteOf p H) ∧
      seed p.n = k.skSeed ++ k.skPrf ++ k.pubSeed ∧
      ∃ sk, sk.length = p.sk_bytes ∧ xmssmtKeypairFast P pk0 sk0 oid seed = some (0, k.pk oid, Rfc.toByte oid 4 ++ sk) ∧
        ∀ cs : List Call,
          (∀ j < cs.length, j + 1 < 2 ^ p.full_height → j + 1 < B p.tree_height (p.tree_height / 2 + 2)) →
          (∀ j < cs.length, 2 ^ p.full_height ≤ j → 2 ^ p.full_height < 256 ^ p.index_bytes) →
          (∀ c ∈ cs, p.sig_bytes + c.msg.length ≤ c.sm.length) →
          ∃ os : List FastOut, signAllFast P .xmssmt (Rfc.toByte oid 4 ++ sk) cs = some (os.map fun o => { o with sk := Rfc.toByte oid 4 ++ o.sk }) ∧
            os.length = cs.length ∧ ∀ j c, cs[j]? = some c → ∃ o, os[j]? = some o ∧ PostMt p H k j c o := by
  have f := parseFast_mt hp
  obtain ⟨g, _, ho, _, _, _⟩ := parseFast_good (f := .xmssmt) hp
  have hHl : ∀ x, (H x).length = p.n := by
    obtain ⟨H', h, h'⟩ := C12_core_hash P _ oid p (Or.inr hp)
    rw [hH] at h; cases h; exact h'
  have hpkb := g.pk_eq
  obtain ⟨a, b, c, e, h1, h2, h3⟩ : ∃ a b c : Bytes, seed p.n = a ++ b ++ c ∧ a.length = p.n ∧ b.length = p.n ∧
      c.length = p.n :=
    ⟨(seed p.n).take p.n, ((seed p.n).drop p.n).take p.n, (seed p.n).drop (p.n + p.n), split3 _ _ _,
      by simp; omega, by simp; omega, by simp; omega⟩
  obtain ⟨st0, sg0, states, sigs, _, mi', _, e'⟩ := fastXmssmtKeypair_eq f hHl (pk0.drop 4) (sk0.drop 4) a b c
    (by simp; omega) (by simp; omega) h1 h2 h3
  rw [← e] at e'
  have mi := mi' (fun _ => none) (fun _ _ h => by cases h)
  have hv : (Key.mk a b ((suiteOf p H).root a c) c).Valid p := ⟨h1, h2, node_length g hHl _ _ _ _ _ _, h3⟩
  refine ⟨⟨a, b, (suiteOf p H).root a c, c⟩, hv, rfl, e, _, Key.fastmt_length f hv (mi.ext g hHl),
    apiKeypairFast_eq hp hH (by omega) (by omega) e', ?_⟩
  intro cs hc1 hc2 hcs
  obtain ⟨os, e2, hl, hp2⟩ := signAllFast_mt hp ho hH hHl hv cs 0 _
    (by rw [AfterMt, if_pos (Nat.two_pow_pos _)]; exact ⟨_, _, mi, rfl⟩)
    (fun j hj => by rw [Nat.zero_add]; exact hc1 j hj) (fun j hj => by rw [Nat.zero_add]; exact hc2 j hj) hcs
  refine ⟨os, e2, hl, ?_⟩
  intro j c hj
  have := hp2 j c hj
  rwa [Nat.zero_add] at this

/-! ### C33 -/

/-- **C33 (positive part).**  Linked with the fast implementation, XMSS^MT behaves exactly as with the simple one, for
every accepted OID, hash function and seed: both key generations return the same public key, and in every history of
sign calls with the same messages and output buffers, call number `j` returns the same value, length and bytes of signed
message in both and leaves the same index, seeds and root in the secret key.  This holds for all `j` below the last
index `2^h - 1` when `d ≤ h'/2 + 2`, where `h' = h/d` is the height of one tree (OIDs with 20/2, 20/4, 40/2, 40/4, 60/3,
60/6), and otherwise (40/8, 60/12) for all `j < 2^(h'(h'/2+2)) - 1`.  Missing from the full claim: later signatures of the
sets 40/8 and 60/12, where it is false. -/
theorem C33_fast_xmssmt_equals_simple_partial (hp : parseXmssmt oid = some p) (hpf : parseXmssmtFast oid = some pf)
    (pk0 sk0 pkf0 skf0 : Bytes) (hpk : pk0.length = 4 + p.pk_bytes) (hsk : sk0.length = 4 + p.sk_bytes)
    (hpkf : pkf0.length = 4 + pf.pk_bytes) (hskf : skf0.length = 4 + pf.sk_bytes) (seed : Nat → Bytes)
    (hs : (seed p.n).length = 3 * p.n) :
    ∃ pk sk skf, xmssmtKeypair P pk0 sk0 oid seed = some (0, pk, sk) ∧
      xmssmtKeypairFast P pkf0 skf0 oid seed = some (0, pk, skf) ∧
      ∀ cs, Sized p cs → cs.length < 2 ^ p.full_height →
        (p.d ≤ p.tree_height / 2 + 2 ∨ cs.length < 2 ^ (p.tree_height * (p.tree_height / 2 + 2))) →
        ∃ (os : List SignOut) (ofs : List FastOut), signAll P .xmssmt sk cs = some os ∧ signAllFast P .xmssmt skf cs = some ofs ∧
        os.length = cs.length ∧ ofs.length = cs.length ∧
        ∀ (j : Nat) (o : SignOut) (o' : FastOut), os[j]? = some o → ofs[j]? = some o' →
          o'.ret = 0 ∧ o'.ret = o.ret ∧ o'.sm = o.sm ∧ o'.smlen = o.smlen ∧
          o'.sk.take (4 + p.index_bytes + 4 * p.n) = o.sk := by
  obtain ⟨pf', hpf', e⟩ := parse_both (f := .xmssmt) hp
  rw [show Family.parseFast .xmssmt oid = parseXmssmtFast oid from rfl, hpf] at hpf'
  cases hpf'
  obtain ⟨g, hskb, ho, H, hH⟩ := Family.facts (P := P) (f := .xmssmt) hp
  have hHf : coreHash P pf.func pf.n = some H := by rw [e]; exact hH
  have hS : suiteOf pf H = suiteOf p H := by rw [e]; rfl
  have en : pf.n = p.n := by rw [e]
  have eib : pf.index_bytes = p.index_bytes := by rw [e]
  have esig : pf.sig_bytes = p.sig_bytes := by rw [e]
  have efh : pf.full_height = p.full_height := by rw [e]
  have eth : pf.tree_height = p.tree_height := by rw [e]
  obtain ⟨k, hv, hh, hsd, ek⟩ := keypair_key (f := .xmssmt) hp hH pk0 sk0 hpk hsk seed hs
  obtain ⟨k', hv', hh', hsd', skf, _, ekf, hist⟩ := fast_xmssmt_history hpf hHf pkf0 skf0 hpkf hskf seed (by rw [en]; exact hs)
  have hkk : k' = k := by
    rw [en, hsd] at hsd'
    have l1 : k.skSeed.length = k'.skSeed.length := by rw [hv.skSeed, hv'.skSeed, en]
    have l2 : k.skPrf.length = k'.skPrf.length := by rw [hv.skPrf, hv'.skPrf, en]
    obtain ⟨a1, a2⟩ := List.append_inj hsd' (by simp [l1, l2])
    obtain ⟨a3, a4⟩ := List.append_inj a1 l1
    rw [Key.Honest] at hh hh'
    rw [hS, ← a3, ← a2] at hh'
    have a5 : k.root = k'.root := by rw [hh, hh']
    cases k; cases k'
    simp_all
  subst hkk
  refine ⟨_, _, _, ek, ekf, ?_⟩
  intro cs hcs hlen hlim
  have hlim' : ∀ j < cs.length, j + 1 < B p.tree_height (p.tree_height / 2 + 2) := by
    intro j hj
    rcases hlim with h | h
    · have : 2 ^ p.full_height ≤ B p.tree_height (p.tree_height / 2 + 2) := by
        rw [← g.height]; exact Nat.pow_le_pow_right (by omega) (Nat.mul_le_mul_left _ h)
      omega
    · rw [B]; omega
  obtain ⟨os, e1, l1, h1⟩ := hist cs (fun j hj _ => by rw [eth]; exact hlim' j hj) (fun j hj h => by rw [efh] at h; omega)
    (fun c hc => by rw [esig]; exact (hcs c hc).ge)
  have e2 := signAll_eq (f := .xmssmt) hp hH cs 0 k' hv (by positivity) hcs
  refine ⟨_, _, e2, e1, by simp, by simp [l1], ?_⟩
  intro j o o' ho1 ho2
  have hj' : j < cs.length := by
    by_contra hn
    rw [List.getElem?_eq_none (by simp; omega)] at ho1
    cases ho1
  have hj : j < 2 ^ p.full_height - 1 := by omega
  obtain ⟨o3, e3, h3⟩ := h1 j cs[j] (List.getElem?_eq_getElem hj')
  rw [List.getElem?_map, e3] at ho2
  simp only [Option.map_some, Option.some.injEq] at ho2
  rw [List.getElem?_mapIdx, List.getElem?_eq_getElem hj'] at ho1
  simp only [Option.map_some, Option.some.injEq] at ho1
  rw [stateAfter_lt j (by omega)] at ho1
  have hsz := hcs cs[j] (List.getElem_mem hj')
  obtain ⟨c1, c2, c3, c4⟩ := h3.ok (by rw [efh]; omega)
  subst ho1 ho2
  simp only [outcome, if_pos hj, if_pos (show j < 2 ^ p.full_height by omega), c1, c2, c3, esig, hS]
  refine ⟨trivial, trivial, ?_, trivial, ?_⟩
  · rw [List.drop_of_length_le (by omega), List.append_nil]
  · rw [Nat.add_assoc, List.take_append, toByte_length, List.take_of_length_le (by rw [toByte_length]; omega)]
    rw [en, eib] at c4
    rw [show 4 + (p.index_bytes + 4 * p.n) - 4 = p.index_bytes + 4 * p.n by omega, c4, nextKey, nextIdx, if_pos hj, if_pos hj,
      Key.sk]

-- The two cases: XMSSMT-SHA2_20/2, 20/4, 40/2, 40/4, 60/3, 60/6 are covered completely, 40/8 and 60/12 up to index 2^20 - 2.
example : ∀ oid ∈ [1, 2, 3, 4, 6, 7], ∃ p, parseXmssmt oid = some p ∧ p.d ≤ p.tree_height / 2 + 2 := by
  intro oid h
  simp only [List.mem_cons, List.not_mem_nil, or_false] at h
  rcases h with rfl | rfl | rfl | rfl | rfl | rfl <;> exact ⟨_, rfl, by decide⟩
example : ∀ oid ∈ [5, 8], ∃ p, parseXmssmt oid = some p ∧ p.tree_height * (p.tree_height / 2 + 2) = 20 := by
  intro oid h
  simp only [List.mem_cons, List.not_mem_nil, or_false] at h
  rcases h with rfl | rfl <;> exact ⟨_, rfl, by decide⟩

/-! ### C34, C35 -/

theorem fastLimit (g : p.Good) {cs : List Call}
    (hlim : p.d ≤ p.tree_height / 2 + 2 ∨ cs.length < 2 ^ (p.tree_height * (p.tree_height / 2 + 2))) :
    ∀ j < cs.length, j + 1 < 2 ^ p.full_height → j + 1 < B p.tree_height (p.tree_height / 2 + 2) := by
  intro j hj hlt
  rcases hlim with h | h
  · have : 2 ^ p.full_height ≤ B p.tree_height (p.tree_height / 2 + 2) := by
      rw [← g.height]; exact Nat.pow_le_pow_right (by omega) (Nat.mul_le_mul_left _ h)
    omega
  · rw [B]; omega

theorem fastFit (hp : parseXmssmtFast oid = some p) {cs : List Call} (h40 : p.full_height = 40 → cs.length ≤ 2 ^ 40) :
    ∀ j < cs.length, 2 ^ p.full_height ≤ j → 2 ^ p.full_height < 256 ^ p.index_bytes := by
  have hfit : p.full_height ≠ 40 → 2 ^ p.full_height < 256 ^ p.index_bytes := by
    obtain ⟨e, he, _, rfl⟩ := xmssmt_parse_entry hp
    have : ∀ e ∈ Registry.xmssmt, e.h ≠ 40 → 2 ^ e.h < 256 ^ (params16 fastSkBytes (funcOf e.family) e.n e.pad e.h e.d 0).index_bytes := by
      decide +kernel
    exact this e he
  intro j hj h
  by_cases h4 : p.full_height = 40
  · have := h40 h4
    rw [h4] at h
    omega
  · exact hfit h4

/-- **C34 (multi-tree, positive part).**  No history of the fast implementation leaves its arrays: for every accepted OID
with `d ≤ h'/2 + 2` (`h'` the height of one tree), whatever the buffers contained before key generation, key generation and
every sequence of sign calls is defined, where for sets of total height 40 the sequence has at most `2^40` calls.  For the
other OIDs (40/8, 60/12) the same for fewer than `2^(h'(h'/2+2))` calls.  Missing: later calls of the sets 40/8 and 60/12. -/
theorem C34_fast_xmssmt_safe_partial (hp : parseXmssmtFast oid = some p) (pk0 sk0 : Bytes)
    (hpk : pk0.length = 4 + p.pk_bytes) (hsk : sk0.length = 4 + p.sk_bytes) (seed : Nat → Bytes)
    (hs : (seed p.n).length = 3 * p.n) :
    ∃ pk sk, xmssmtKeypairFast P pk0 sk0 oid seed = some (0, pk, sk) ∧ pk.length = pk0.length ∧ sk.length = sk0.length ∧
      ∀ cs : List Call, (∀ c ∈ cs, p.sig_bytes + c.msg.length ≤ c.sm.length) →
        (p.full_height = 40 → cs.length ≤ 2 ^ 40) →
        (p.d ≤ p.tree_height / 2 + 2 ∨ cs.length < 2 ^ (p.tree_height * (p.tree_height / 2 + 2))) →
        ∃ os, signAllFast P .xmssmt sk cs = some os ∧ os.length = cs.length ∧ ∀ o ∈ os, o.sk.length = sk0.length := by
  obtain ⟨H, hH, _⟩ := C12_core_hash P _ oid p (Or.inr hp)
  obtain ⟨g, _, _, _, _, _⟩ := parseFast_good (f := .xmssmt) hp
  obtain ⟨k, hv, _, _, sk, hskl, e, hist⟩ := fast_xmssmt_history hp hH pk0 sk0 hpk hsk seed hs
  have hpkb := g.pk_eq
  refine ⟨_, _, e, ?_, ?_, ?_⟩
  · simp only [Key.pk, List.length_append, toByte_length, hv.root, hv.pubSeed]; omega
  · rw [List.length_append, toByte_length]; omega
  · intro cs hcs h40 hlim
    obtain ⟨os, e2, hl, hp2⟩ := hist cs (fastLimit g hlim) (fastFit hp h40) hcs
    refine ⟨_, e2, by simp [hl], ?_⟩
    intro o hmem
    obtain ⟨o', hm, rfl⟩ := List.mem_map.mp hmem
    obtain ⟨j, hj, hjo⟩ := List.getElem_of_mem hm
    obtain ⟨o2, e3, post⟩ := hp2 j cs[j] (List.getElem?_eq_getElem (by omega))
    rw [List.getElem?_eq_getElem hj, hjo] at e3
    cases e3
    simp only [List.length_append, toByte_length, post.size]
    omega

/-- **C35 (multi-tree, positive part).**  A call computes at most `h'/2 + 2` leaves, hence at most `(h' - k)/2` for the
tree-hash instances plus one per layer, in every history of every accepted OID with `d ≤ h'/2 + 1` (20/2, 40/2, 40/4, 60/3,
60/6; for sets of total height 40 histories of at most `2^40` calls).  For the other OIDs (20/4, 40/8, 60/12) the same of
every call number `j` with `2^(h'(h'/2+1)) ∤ j + 1` in histories of fewer than `2^(h'(h'/2+2))` calls.  Missing: the other
calls of those sets, for which it is false (`C35_fails`). -/
theorem C35_fast_xmssmt_work_partial (hp : parseXmssmtFast oid = some p) (pk0 sk0 : Bytes)
    (hpk : pk0.length = 4 + p.pk_bytes) (hsk : sk0.length = 4 + p.sk_bytes) (seed : Nat → Bytes)
    (hs : (seed p.n).length = 3 * p.n) :
    ∃ pk sk, xmssmtKeypairFast P pk0 sk0 oid seed = some (0, pk, sk) ∧
      ∀ cs : List Call, (∀ c ∈ cs, p.sig_bytes + c.msg.length ≤ c.sm.length) →
        (p.full_height = 40 → cs.length ≤ 2 ^ 40) →
        (p.d ≤ p.tree_height / 2 + 2 ∨ cs.length < 2 ^ (p.tree_height * (p.tree_height / 2 + 2))) →
        ∃ os : List FastOut, signAllFast P .xmssmt sk cs = some os ∧ os.length = cs.length ∧
          ∀ (j : Nat) (o : FastOut), os[j]? = some o →
            p.d ≤ p.tree_height / 2 + 1 ∨ ¬ 2 ^ (p.tree_height * (p.tree_height / 2 + 1)) ∣ j + 1 →
            o.leaves ≤ (p.tree_height - p.bds_k) / 2 + 2 ∧ o.leaves ≤ (p.tree_height - p.bds_k) / 2 + p.d := by
  obtain ⟨H, hH, _⟩ := C12_core_hash P _ oid p (Or.inr hp)
  obtain ⟨g, _, _, hk0, _, _⟩ := parseFast_good (f := .xmssmt) hp
  have f := parseFast_mt hp
  have hd2 := f.d
  obtain ⟨k, hv, _, _, sk, hskl, e, hist⟩ := fast_xmssmt_history hp hH pk0 sk0 hpk hsk seed hs
  refine ⟨_, _, e, ?_⟩
  intro cs hcs h40 hlim
  obtain ⟨os, e2, hl, hp2⟩ := hist cs (fastLimit g hlim) (fastFit hp h40) hcs
  refine ⟨_, e2, by simp [hl], ?_⟩
  intro j o ho hor
  rw [List.getElem?_map] at ho
  obtain ⟨o', ho', rfl⟩ := Option.map_eq_some_iff.mp ho
  have hj : j < cs.length := by
    by_contra hn
    rw [List.getElem?_eq_none (by omega)] at ho'
    cases ho'
  obtain ⟨o2, e3, post⟩ := hp2 j cs[j] (List.getElem?_eq_getElem hj)
  rw [ho'] at e3
  cases e3
  have : o'.leaves ≤ p.tree_height / 2 + 2 := by
    by_cases hz : 2 ^ p.full_height ≤ j + 1
    · rw [post.idle hz]; omega
    · refine post.work ?_
      rcases hor with h | h
      · intro hdv
        have h1 : 2 ^ p.full_height ≤ B p.tree_height (p.tree_height / 2 + 1) := by
          rw [← g.height]; exact Nat.pow_le_pow_right (by omega) (Nat.mul_le_mul_left _ h)
        have := Nat.le_of_dvd (by omega) hdv
        omega
      · exact h
  simp only
  have hk : p.bds_k = 0 := hk0
  rw [hk, Nat.sub_zero]
  omega

/-- **C35 fails.**  For the OIDs with at least four layers of height five (XMSSMT-*_20/4_*, 40/8, 60/12) call number `2^18`
of every history (index `2^18 - 1`) computes at least `d + 4` leaves, more than `(h' - k)/2 + d = d + 2`: the budget of updates
is decremented below zero when three layers change their tree at once, and wraps around. -/
theorem C35_fails (hp : parseXmssmtFast oid = some p) (h5 : p.tree_height = 5) (h4 : 4 ≤ p.d) (pk0 sk0 : Bytes)
    (hpk : pk0.length = 4 + p.pk_bytes) (hsk : sk0.length = 4 + p.sk_bytes) (seed : Nat → Bytes)
    (hs : (seed p.n).length = 3 * p.n) :
    ∃ pk sk, xmssmtKeypairFast P pk0 sk0 oid seed = some (0, pk, sk) ∧
      ∀ cs : List Call, (∀ c ∈ cs, p.sig_bytes + c.msg.length ≤ c.sm.length) → 2 ^ 18 ≤ cs.length →
        (p.d = 4 ∨ cs.length < 2 ^ 20) →
        ∃ os : List FastOut, signAllFast P .xmssmt sk cs = some os ∧ ∃ o : FastOut, os[2 ^ 18 - 1]? = some o ∧ o.ret = 0 ∧
          p.d + 4 ≤ o.leaves ∧ (p.tree_height - p.bds_k) / 2 + p.d < o.leaves := by
  obtain ⟨H, hH, _⟩ := C12_core_hash P _ oid p (Or.inr hp)
  obtain ⟨g, _, _, _, _, _⟩ := parseFast_good (f := .xmssmt) hp
  have hfh : 20 ≤ p.full_height := by rw [← g.height, h5]; omega
  have hd : p.d ≤ 100 := by
    obtain ⟨e, he, _, rfl⟩ := xmssmt_parse_entry hp
    have : ∀ e ∈ Registry.xmssmt, e.d ≤ 100 := by decide +kernel
    exact this e he
  have hpow : 2 ^ 20 ≤ 2 ^ p.full_height := Nat.pow_le_pow_right (by omega) hfh
  obtain ⟨k, hv, _, _, sk, hskl, e, hist⟩ := fast_xmssmt_history hp hH pk0 sk0 hpk hsk seed hs
  refine ⟨_, _, e, ?_⟩
  intro cs hcs hlen hlen2
  obtain ⟨os, e2, hl, hp2⟩ := hist cs (fastLimit g (hlen2.imp (fun h => by rw [h5, h]) (fun h => by rw [h5]; exact h)))
    (fastFit hp (by have := g.height; rw [h5] at this; omega)) hcs
  have hj : 2 ^ 18 - 1 < cs.length := by omega
  obtain ⟨o, e3, post⟩ := hp2 (2 ^ 18 - 1) cs[2 ^ 18 - 1] (List.getElem?_eq_getElem hj)
  refine ⟨_, e2, { o with sk := Rfc.toByte oid 4 ++ o.sk }, by rw [List.getElem?_map, e3]; rfl, ?_⟩
  have hlt : 2 ^ 18 - 1 + 1 < 2 ^ p.full_height := by omega
  have := post.busy hlt 3 (by omega) (by omega) (by rw [h5]; decide) (by rw [h5]; decide)
  obtain ⟨A, hA, hw⟩ := this
  rw [if_pos ⟨by omega, hd, by rw [h5]⟩] at hw
  rw [h5] at hA hw
  have hr : remWork 5 (restart 5 5 (leafAt 5 (2 ^ 18 - 1) 3 + 1) A) = 7 := by
    rw [show leafAt 5 (2 ^ 18 - 1) 3 + 1 = 8 by decide]
    have a0 := hA 0 (by omega)
    have a1 := hA 1 (by omega)
    have a2 := hA 2 (by omega)
    have a3 := hA 3 (by omega)
    have a4 := hA 4 (by omega)
    simp only [remWork, Finset.sum_range_succ, Finset.sum_range_zero, restart, a0, a1, a2, a3, a4]
    decide
  rw [hr] at hw
  refine ⟨(post.ok hlt).1, ?_, ?_⟩ <;> simp only
  · omega
  · rw [h5]; omega

/-- **C35 (the sets for which the bound fails).**  For the OIDs with at least four layers of height five (XMSSMT-*_20/4_*, and the
first `2^20 - 1` calls of 40/8 and 60/12) no call of any history computes more than `d + 4` leaves, and call number `2^18`
computes exactly so many: `d + 4` is the worst case. -/
theorem C35_worst_call (hp : parseXmssmtFast oid = some p) (h5 : p.tree_height = 5) (h4 : 4 ≤ p.d) (pk0 sk0 : Bytes)
    (hpk : pk0.length = 4 + p.pk_bytes) (hsk : sk0.length = 4 + p.sk_bytes) (seed : Nat → Bytes)
    (hs : (seed p.n).length = 3 * p.n) :
    ∃ pk sk, xmssmtKeypairFast P pk0 sk0 oid seed = some (0, pk, sk) ∧
      ∀ cs : List Call, (∀ c ∈ cs, p.sig_bytes + c.msg.length ≤ c.sm.length) → (p.d = 4 ∨ cs.length < 2 ^ 20) →
        ∃ os : List FastOut, signAllFast P .xmssmt sk cs = some os ∧ os.length = cs.length ∧ (∀ o ∈ os, o.leaves ≤ p.d + 4) ∧
          (2 ^ 18 ≤ cs.length → ∃ o : FastOut, os[2 ^ 18 - 1]? = some o ∧ o.leaves = p.d + 4) := by
  obtain ⟨H, hH, _⟩ := C12_core_hash P _ oid p (Or.inr hp)
  obtain ⟨g, _, _, _, _, _⟩ := parseFast_good (f := .xmssmt) hp
  obtain ⟨k, hv, _, _, sk, hskl, e, hist⟩ := fast_xmssmt_history hp hH pk0 sk0 hpk hsk seed hs
  obtain ⟨pk', sk', e', hf⟩ := C35_fails (P := P) hp h5 h4 pk0 sk0 hpk hsk seed hs
  rw [e] at e'
  cases e'
  refine ⟨_, _, e, ?_⟩
  intro cs hcs hlim
  obtain ⟨os, e2, hl, hp2⟩ := hist cs (fastLimit g (hlim.imp (fun h => by rw [h5, h]) (fun h => by rw [h5]; exact h)))
    (fastFit hp (by have := g.height; rw [h5] at this; omega)) hcs
  have hmax : ∀ o ∈ os.map (fun o => { o with sk := Rfc.toByte oid 4 ++ o.sk }), o.leaves ≤ p.d + 4 := by
    intro o ho
    obtain ⟨o', ho', rfl⟩ := List.mem_map.mp ho
    obtain ⟨j, hj, ej⟩ := List.mem_iff_getElem.mp ho'
    have hjc : j < cs.length := by omega
    obtain ⟨o2, e3, post⟩ := hp2 j cs[j] (List.getElem?_eq_getElem hjc)
    rw [List.getElem?_eq_getElem hj, ej] at e3
    cases e3
    simp only
    have a1 := post.work
    have a2 := post.most
    rw [h5] at a1 a2
    by_cases hB : B 5 (5 / 2 + 1) ∣ j + 1
    · have := a2 hB
      omega
    · have := a1 hB
      omega
  refine ⟨_, e2, by simp [hl], hmax, ?_⟩
  intro hlen
  obtain ⟨os', e4, o, ho, _, hge, _⟩ := hf cs hcs hlen hlim
  rw [e2] at e4
  cases e4
  exact ⟨o, ho, Nat.le_antisymm (hmax o (List.mem_of_getElem? ho)) hge⟩

-- XMSSMT-SHA2_20/4_256, 40/8 and 60/12
example : ∃ p, parseXmssmtFast 2 = some p ∧ p.tree_height = 5 ∧ p.d = 4 := ⟨_, rfl, by decide⟩
example : ∃ p, parseXmssmtFast 5 = some p ∧ p.tree_height = 5 ∧ p.d = 8 := ⟨_, rfl, by decide⟩
example : ∃ p, parseXmssmtFast 8 = some p ∧ p.tree_height = 5 ∧ p.d = 12 := ⟨_, rfl, by decide⟩

end Xmss
