import Verif.Props.HashCallsFastSame
/-
C75 at the end of the life of a key: the last call and the calls that are refused.
-/
namespace Xmss
open Tr Sched HashCalls

variable {P P' : Prims} {f : Family} {oid : Nat} {p : Params} {H H' : Bytes → Bytes}

namespace HashCalls

theorem val_mk {t : Tr FastOut} {o : FastOut} (h : val t = some o) : ∃ l, t = mk o l := by
  cases t with
  | none => cases h
  | some r =>
    obtain ⟨a, l⟩ := r
    cases h
    exact ⟨l, rfl⟩

/-- What call number `n` records, from `2^h - 1` on. -/
def EndCalls (p : Params) (H : Bytes → Bytes) (n : Nat) (m : Bytes) (l : List Nat) : Prop :=
  (n + 1 = 2 ^ p.full_height → l = headCalls p H (Key.zero p) n m) ∧ (2 ^ p.full_height ≤ n → l = [])

/-- One call. -/
theorem end_step (hp : f.parseFast oid = some p) (hHl : ∀ x, (H x).length = p.n) {k : Key} (hk : k.Valid p) {n : Nat} {body : Bytes}
    (hlim : f = .xmssmt → (n + 1 < 2 ^ p.full_height → n + 1 < B p.tree_height (p.tree_height / 2 + 2)) ∧
      (2 ^ p.full_height ≤ n → 2 ^ p.full_height < 256 ^ p.index_bytes))
    (af : AfterF f p H k n body) (a : Call) (ha : p.sig_bytes + a.msg.length ≤ a.sm.length) :
    ∃ (o : FastOut) (l : List Nat), coreFastT f H p body a.sm a.smlen0 a.msg = mk o l ∧ AfterF f p H k (n + 1) o.sk ∧ EndCalls p H n a.msg l := by
  obtain ⟨g, _, _, _, _, _⟩ := parseFast_good hp
  cases f with
  | xmss =>
    have f1 := parseFast_fast1 hp
    have hu : min p.insts (p.tree_height - 2) ≤ 2 * (p.insts / 2) := by unfold Params.insts; omega
    obtain ⟨o, e, af1, _⟩ := After1.step f1 hu hHl hk af a ha
    have e1 : val (fastXmssSignT H p body a.sm a.smlen0 a.msg) = some o := by rw [fastXmssSignT_val]; exact e
    obtain ⟨l, hl⟩ := val_mk e1
    refine ⟨o, l, hl, af1, ?_, ?_⟩
    · intro hn
      have af : After1 p H k n body := af
      rw [After1, if_pos (by omega)] at af
      obtain ⟨s, rdy, rfl⟩ := af
      obtain rfl : n = 2 ^ p.full_height - 1 := by omega
      obtain ⟨o', e', _⟩ := fastXmssSignT_last f1 hHl hk (s := s) (by obtain ⟨_, _, ti, _⟩ := rdy; exact ti.work.shape) a.sm a.smlen0 a.msg ha
      have hh := e'.symm.trans hl
      cases hh
      rfl
    · intro hn
      have af : After1 p H k n body := af
      rw [After1, if_neg (by omega)] at af
      obtain ⟨ib, bd, h1, h2, h3, rfl⟩ := af
      obtain ⟨o', e', _⟩ := fastXmssSignT_over (H := H) f1 h1 h2 h3 a.sm a.smlen0 a.msg
      have hh := e'.symm.trans hl
      cases hh
      rfl
  | xmssmt =>
    have f1 := parseFast_mt hp
    obtain ⟨o, e, af1, _⟩ := AfterMt.step f1 hHl hk af (hlim rfl).1 (hlim rfl).2 a ha
    have e1 : val (fastXmssmtSignT H p body a.sm a.smlen0 a.msg) = some o := by rw [fastXmssmtSignT_val]; exact e
    obtain ⟨l, hl⟩ := val_mk e1
    refine ⟨o, l, hl, af1, ?_, ?_⟩
    · intro hn
      have af : AfterMt p H k n body := af
      rw [AfterMt, if_pos (by omega)] at af
      obtain ⟨st, sg, mi, rfl⟩ := af
      obtain rfl : n = 2 ^ p.full_height - 1 := by omega
      obtain ⟨o', e', _⟩ := fastXmssmtSignT_last f1 hHl hk (mi.ext g hHl) a.sm a.smlen0 a.msg ha
      have hh := e'.symm.trans hl
      cases hh
      rfl
    · intro hn
      have af : AfterMt p H k n body := af
      rw [AfterMt, if_neg (by omega)] at af
      obtain ⟨ib, bd, h1, h2, h3, rfl⟩ := af ((hlim rfl).2 hn)
      obtain ⟨o', e', _⟩ := fastXmssmtSignT_over (H := H) f1 h1 h2 h3 a.sm a.smlen0 a.msg
      have hh := e'.symm.trans hl
      cases hh
      rfl

/-- A history. -/
theorem end_history (hp : f.parseFast oid = some p) (hH : coreHash P p.func p.n = some H) (hHl : ∀ x, (H x).length = p.n) {k : Key}
    (hk : k.Valid p) {N : Nat} (hlim : f = .xmssmt → ∀ n < N, (n + 1 < 2 ^ p.full_height → n + 1 < B p.tree_height (p.tree_height / 2 + 2)) ∧
      (2 ^ p.full_height ≤ n → 2 ^ p.full_height < 256 ^ p.index_bytes)) : ∀ (cs : List Call) (n : Nat) (body : Bytes), n + cs.length ≤ N →
    (∀ c ∈ cs, p.sig_bytes + c.msg.length ≤ c.sm.length) → AfterF f p H k n body →
    ∃ rs, signAllFastT P f (Rfc.toByte oid 4 ++ body) cs = some rs ∧ rs.length = cs.length ∧
      ∀ (j : Nat) (a : Call) (o : FastOut) (l : List Nat), cs[j]? = some a → rs[j]? = some (o, l) → EndCalls p H (n + j) a.msg l
  | [], n, body, _, _, _ => ⟨[], rfl, rfl, by simp⟩
  | a :: cs, n, body, hn, hs, af => by
    simp only [List.length_cons] at hn
    obtain ⟨o, l, e1, af1, hc⟩ := end_step hp hHl hk (fun h => hlim h n (by omega)) af a (hs a (by simp))
    obtain ⟨rs, r1, r3, r5⟩ := end_history hp hH hHl hk hlim cs (n + 1) o.sk (by omega) (fun c hc => hs c (by simp [hc])) af1
    have s1 : f.signFastT P (Rfc.toByte oid 4 ++ body) a.sm a.smlen0 a.msg = mk { o with sk := Rfc.toByte oid 4 ++ o.sk } l := by
      rw [signFastT_core hp hH, e1, bind_mk, pure_eq, tell_mk_nil]
    refine ⟨({ o with sk := Rfc.toByte oid 4 ++ o.sk }, l) :: rs, ?_, by simp [r3], ?_⟩
    · rw [signAllFastT, s1]
      simp only [valueOf, callsOf, mk, Option.map_some, Option.bind_eq_bind, Option.bind_some, r1]
    · intro j a' q m h1 h3
      cases j with
      | zero =>
        rw [List.getElem?_cons_zero, Option.some.injEq] at h1 h3
        subst h1
        obtain ⟨rfl, rfl⟩ := Prod.mk.inj h3
        exact hc
      | succ j =>
        rw [List.getElem?_cons_succ] at h1 h3
        have := r5 j a' q m h1 h3
        rwa [show n + 1 + j = n + (j + 1) by omega] at this

end HashCalls
open HashCalls

/-- **C75 (the end of a key).**  Two key pairs and histories as above, of any length that is covered by C33.  Call number `2^h`, which
signs with a deleted key, makes the same hash calls in both when the messages have the same length and the digests, which it computes
with zeros instead of `SK_PRF` and the root, take the same number of chain steps; calls after that make none. -/
theorem C75_end (hp : f.parseFast oid = some p) (hH : coreHash P p.func p.n = some H) (hH' : coreHash P' p.func p.n = some H')
    (pk0 sk0 pk0' sk0' : Bytes)
    (hpk : pk0.length = 4 + p.pk_bytes) (hsk : sk0.length = 4 + p.sk_bytes) (hpk' : pk0'.length = 4 + p.pk_bytes)
    (hsk' : sk0'.length = 4 + p.sk_bytes) (seed seed' : Nat → Bytes) (hs : (seed p.n).length = 3 * p.n) (hs' : (seed' p.n).length = 3 * p.n) :
    ∃ (pk pk' sk sk' : Bytes), f.keypairFast P pk0 sk0 oid seed = some (0, pk, sk) ∧ f.keypairFast P' pk0' sk0' oid seed' = some (0, pk', sk') ∧
      ∀ cs cs' : List Call, (∀ c ∈ cs, p.sig_bytes + c.msg.length ≤ c.sm.length) → (∀ c ∈ cs', p.sig_bytes + c.msg.length ≤ c.sm.length) →
        FastCovered p cs → FastCovered p cs' →
        ∃ rs rs', signAllFastT P f sk cs = some rs ∧ signAllFastT P' f sk' cs' = some rs' ∧ rs.length = cs.length ∧ rs'.length = cs'.length ∧
          ∀ (j : Nat) (c c' : Call) (o o' : FastOut) (l l' : List Nat), cs[j]? = some c → cs'[j]? = some c' → rs[j]? = some (o, l) →
            rs'[j]? = some (o', l') →
            (j + 1 = 2 ^ p.full_height → c.msg.length = c'.msg.length →
              (let zeros := List.replicate p.n (0 : UInt8)
               chainSteps (suiteOf p H) ((suiteOf p H).digest ((suiteOf p H).PRF zeros (Rfc.toByte j 32)) zeros j c.msg) =
                chainSteps (suiteOf p H') ((suiteOf p H').digest ((suiteOf p H').PRF zeros (Rfc.toByte j 32)) zeros j c'.msg)) →
              l = l') ∧
            (2 ^ p.full_height ≤ j → l = [] ∧ l' = []) := by
  obtain ⟨g, _, _, _, _, _⟩ := parseFast_good hp
  obtain ⟨_, h1, hHl⟩ := Family.hashFast (P := P) hp
  obtain ⟨_, h2, hHl'⟩ := Family.hashFast (P := P') hp
  rw [hH] at h1
  rw [hH'] at h2
  obtain rfl := Option.some.inj h1
  obtain rfl := Option.some.inj h2
  obtain ⟨k, k', body, body', v, v', _, _, sd, sd', e, e', t, af, af'⟩ :=
    keygen_twin hp hH hH' hHl hHl' pk0 sk0 pk0' sk0' hpk hsk hpk' hsk' seed seed' hs hs'
  refine ⟨_, _, _, _, e, e', ?_⟩
  intro cs cs' hcs hcs' hcov hcov'
  have lim : ∀ cs : List Call, FastCovered p cs → f = .xmssmt → ∀ n < cs.length,
      (n + 1 < 2 ^ p.full_height → n + 1 < B p.tree_height (p.tree_height / 2 + 2)) ∧
      (2 ^ p.full_height ≤ n → 2 ^ p.full_height < 256 ^ p.index_bytes) := by
    rintro cs hcov rfl n hn
    exact ⟨fastLimit g hcov.2 n hn, fastFit hp hcov.1 n hn⟩
  obtain ⟨rs, r1, r3, r5⟩ := end_history hp hH hHl v (lim cs hcov) cs 0 body (by omega) hcs af
  obtain ⟨rs', r1', r3', r5'⟩ := end_history hp hH' hHl' v' (lim cs' hcov') cs' 0 body' (by omega) hcs' af'
  refine ⟨rs, rs', r1, r1', r3, r3', ?_⟩
  intro j c c' o o' l l' hc hc' ho ho'
  have q := r5 j c o l hc ho
  have q' := r5' j c' o' l' hc' ho'
  rw [Nat.zero_add] at q q'
  refine ⟨fun hj hm hd => ?_, fun hj => ⟨q.2 hj, q'.2 hj⟩⟩
  rw [q.1 hj, q'.1 hj]
  exact headCalls_eq hm hd

end Xmss
