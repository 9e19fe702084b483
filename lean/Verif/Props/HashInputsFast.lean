import Verif.Proof.TraceInputsMt
import Verif.Props.HashInputs
import Verif.Props.HashCallsFastSame
/-
C78: what the owner of a key hashes over the life of the key (fast implementation).
-/
namespace Xmss
open Tr Inputs TI HashInputs HashCalls Sched

variable {P : Prims} {f : Family} {oid : Nat} {p : Params} {H : Bytes → Bytes}

/-- The result of a recorded computation. -/
def resultOf {α : Type} (t : TrG (Nat × Bytes) α) : Option α := Option.map Prod.fst t

/-- A history of the fast implementation, as `signAllFast`, where every call also gives the record of what it hashed. -/
def signAllFastI (P : Prims) (f : Family) : Bytes → List Call → Option (List (FastOut × List (Nat × Bytes)))
  | _, [] => some []
  | sk, c :: cs => do
    let o ← resultOf (f.signFastT P sk c.sm c.smlen0 c.msg)
    let l ← inputsOf (f.signFastT P sk c.sm c.smlen0 c.msg)
    let os ← signAllFastI P f o.sk cs
    some ((o, l) :: os)

/-- **C78 (the recorded functions are the functions).**  For all arguments, also where the behaviour is undefined. -/
theorem C78_same (P : Prims) (f : Family) :
    (∀ pk sk oid seed, resultOf (f.keypairFastT P pk sk oid seed) = f.keypairFast P pk sk oid seed) ∧
    (∀ sk sm l0 m, resultOf (f.signFastT P sk sm l0 m) = f.signFast P sk sm l0 m) := by
  refine ⟨fun pk sk oid seed => ?_, fun sk sm l0 m => ?_⟩
  · show valI _ = _
    rw [← val_lens, (C76_same P f).2.2.2.1]
    exact (C74_same P f).1 pk sk oid seed
  · show valI _ = _
    rw [← val_lens, (C76_same P f).2.2.2.2]
    exact (C74_same P f).2 sk sm l0 m

/-- The same for histories. -/
theorem C78_same_history (P : Prims) (f : Family) : ∀ (sk : Bytes) (cs : List Call),
    (signAllFastI P f sk cs).map (List.map Prod.fst) = signAllFast P f sk cs
  | _, [] => rfl
  | sk, c :: cs => by
    have h := (C78_same P f).2 sk c.sm c.smlen0 c.msg
    rw [signAllFastI, signAllFast, ← h]
    cases ht : f.signFastT (κ := Nat × Bytes) P sk c.sm c.smlen0 c.msg with
    | none => rfl
    | some r =>
      obtain ⟨o, l⟩ := r
      have ih := C78_same_history P f o.sk cs
      simp only [resultOf, inputsOf, Option.map_some, Option.bind_eq_bind, Option.bind_some]
      rw [← ih]
      cases signAllFastI P f o.sk cs <;> rfl

namespace HashInputs

theorem keypairFast_ht (hp : f.parseFast oid = some p) (hH : coreHash P p.func p.n = some H) (pk0 sk0 : Bytes)
    (hsk : sk0.length = 4 + p.sk_bytes) (seed : Nat → Bytes) :
    HT (TreeQ H p ((seed p.n).take p.n) (((seed p.n).drop (2 * p.n)).take p.n)) (f.keypairFastT P pk0 sk0 oid seed) (fun _ => True) := by
  obtain ⟨H', hH', hHl⟩ := Family.hashFast (P := P) hp
  rw [hH] at hH'
  obtain rfl := Option.some.inj hH'
  have hl : ∀ {b d : Bytes} {sk1 : Bytes}, wr b 0 d = some sk1 → sk1.length = b.length := fun h => wr_length h
  cases f with
  | xmss =>
    have f1 := parseFast_fast1 hp
    rw [Family.keypairFastT, apiKeypairFastT, show parseXmssFast oid = some p from hp]
    refine HT.optBind fun pk1 _ => HT.optBind fun sk1 h1 => ?_
    rw [hH]
    refine HT.optBind fun _ e => ?_
    cases e
    refine HT.bind (fastXmssKeypair_ht f1 hHl ?_) fun _ _ => HT.pure trivial
    rw [List.length_drop, hl h1, hsk, oidLen]; omega
  | xmssmt =>
    have f1 := parseFast_mt hp
    rw [Family.keypairFastT, apiKeypairFastT, show parseXmssmtFast oid = some p from hp]
    refine HT.optBind fun pk1 _ => HT.optBind fun sk1 h1 => ?_
    rw [hH]
    refine HT.optBind fun _ e => ?_
    cases e
    refine HT.bind (fastXmssmtKeypair_ht f1 hHl ?_) fun _ _ => HT.pure trivial
    rw [List.length_drop, hl h1, hsk, oidLen]; omega

/-- The states of a key after `idx` signatures. -/
def ReadyF (f : Family) (p : Params) (H : Bytes → Bytes) (k : Key) (idx : Nat) (st : List BdsState) (sg : List Bytes) : Prop :=
  match f with
  | .xmss => ∃ s, st = [s] ∧ Ready p ((suiteOf p H).node k.skSeed k.pubSeed 0 0) [] idx s
  | .xmssmt => idx + 1 < B p.tree_height (p.tree_height / 2 + 2) ∧ MtInv H p k.skSeed k.pubSeed (fun _ => none) idx st sg

theorem signFast_ht (hp : f.parseFast oid = some p) (hH : coreHash P p.func p.n = some H) (hHl : ∀ x, (H x).length = p.n)
    {k : Key} (hk : k.Valid p) {idx : Nat}
    (hidx : idx < 256 ^ p.index_bytes) {st : List BdsState} {sg : List Bytes} (sh : ExtShape p st sg)
    (hr : idx < 2 ^ p.full_height - 1 → ReadyF f p H k idx st sg) (sm : Bytes) (l0 : Nat) (m : Bytes) :
    HT (fun c => SignQ H p (usedKey p k idx).skSeed (usedKey p k idx).pubSeed (usedKey p k idx).skPrf (usedKey p k idx).root idx m c ∧
        idx < 2 ^ p.full_height) (f.signFastT P (Rfc.toByte oid 4 ++ k.fast p idx st sg) sm l0 m) (fun _ => True) := by
  obtain ⟨g, _, ho, _, _, _⟩ := parseFast_good hp
  have t1 : ∀ x : Bytes, (Rfc.toByte oid 4 ++ x).drop oidLen = x := fun x => List.drop_left' (toByte_length _ _)
  cases f with
  | xmss =>
    have f1 := parseFast_fast1 hp
    obtain ⟨s, rfl, rfl, shs⟩ := sh.one f1.d
    rw [Family.signFastT, apiSignFastT, readOid_toByte (by omega)]
    refine HT.optBind fun _ e => ?_
    cases e
    rw [show parseXmssFast oid = some p from hp]
    refine HT.optBind fun _ e => ?_
    rw [hH] at e
    cases e
    rw [t1]
    refine HT.bind (fastXmssSign_ht f1 hHl hk hidx shs fun hi => ?_) fun _ _ => HT.pure trivial
    obtain ⟨s', e, r⟩ := hr hi
    cases e
    exact r
  | xmssmt =>
    have f1 := parseFast_mt hp
    rw [Family.signFastT, apiSignFastT, readOid_toByte (by omega)]
    refine HT.optBind fun _ e => ?_
    cases e
    rw [show parseXmssmtFast oid = some p from hp]
    refine HT.optBind fun _ e => ?_
    rw [hH] at e
    cases e
    rw [t1]
    refine HT.bind (fastXmssmtSign_ht f1 hHl hk hidx sh fun hi => ?_) fun _ _ => HT.pure trivial
    rw [f1.insts]
    exact hr hi

/-- A key after `n` signatures, as states. -/
theorem afterF_states (hp : f.parseFast oid = some p) (hHl : ∀ x, (H x).length = p.n) {k : Key} {n : Nat} {body : Bytes}
    (af : AfterF f p H k n body) (hn : n < 2 ^ p.full_height)
    (hlim : f = .xmssmt → n < 2 ^ p.full_height - 1 → n + 1 < B p.tree_height (p.tree_height / 2 + 2)) :
    ∃ st sg, ExtShape p st sg ∧ body = k.fast p n st sg ∧ (n < 2 ^ p.full_height - 1 → ReadyF f p H k n st sg) := by
  obtain ⟨g, _, _, _, _, _⟩ := parseFast_good hp
  cases f with
  | xmss =>
    rw [AfterF, After1, if_pos hn] at af
    obtain ⟨s, r, rfl⟩ := af
    exact ⟨[s], [], (parseFast_fast1 hp).extShape r.shape, rfl, fun _ => ⟨s, rfl, r⟩⟩
  | xmssmt =>
    rw [AfterF, AfterMt, if_pos hn] at af
    obtain ⟨st, sg, mi, rfl⟩ := af
    exact ⟨st, sg, mi.ext g hHl, rfl, fun h => ⟨hlim rfl h, mi⟩⟩

/-- A used-up key. -/
theorem afterF_over (hp : f.parseFast oid = some p) {k : Key} {n : Nat} {body : Bytes}
    (af : AfterF f p H k n body) (hn : 2 ^ p.full_height ≤ n) (hfit : f = .xmssmt → 2 ^ p.full_height < 256 ^ p.index_bytes) :
    ∃ (k' : Key) (idx : Nat) (st : List BdsState) (sg : List Bytes), k'.Valid p ∧ idx < 256 ^ p.index_bytes ∧ 2 ^ p.full_height ≤ idx ∧
      ExtShape p st sg ∧ body = k'.fast p idx st sg := by
  obtain ⟨g, hskb, _, _, _, _⟩ := parseFast_good hp
  obtain ⟨ib, rest, h1, h2, h3, rfl⟩ : ∃ ib rest : Bytes, ib.length = p.index_bytes ∧ p.index_bytes + rest.length = p.sk_bytes ∧
      2 ^ p.full_height ≤ Rfc.toNat ib ∧ body = ib ++ rest := by
    cases f with
    | xmss => rw [AfterF, After1, if_neg (by omega)] at af; exact af
    | xmssmt => rw [AfterF, AfterMt, if_neg (by omega)] at af; exact af (hfit rfl)
  obtain ⟨k', idx, ext, hk', hidx, hext, e⟩ := damaged_of_length (body := ib ++ rest) hp (by rw [List.length_append]; omega)
  obtain ⟨st, sg, sh, rfl⟩ := ext_any k' hk' idx hskb hext
  have e := List.append_cancel_left e
  refine ⟨k', idx, st, sg, hk', hidx, ?_, sh, by rw [Key.fast, skHead_mat]; exact e⟩
  have e2 : ib = Rfc.toByte idx p.index_bytes := by
    have := congrArg (List.take p.index_bytes) e
    rwa [List.take_left' h1, List.append_assoc, List.take_left' (toByte_length _ _)] at this
  rw [e2, toNat_toByte, Nat.mod_eq_of_lt hidx] at h3
  exact h3

/-- What one call of a history hashes. -/
structure PostInputs (p : Params) (H : Bytes → Bytes) (k : Key) (n : Nat) (m : Bytes) (l : List (Nat × Bytes)) : Prop where
  ok : n + 1 < 2 ^ p.full_height → ∀ c ∈ l, c.1 = c.2.length ∧ SignCall (suiteOf p H) k.skSeed k.pubSeed k.skPrf k.root n m c.2
  last : n + 1 = 2 ^ p.full_height → let z : Bytes := List.replicate p.n 0
    ∀ c ∈ l, c.1 = c.2.length ∧ SignCall (suiteOf p H) z z z z n m c.2
  over : 2 ^ p.full_height ≤ n → l = []

theorem fastStep (hp : f.parseFast oid = some p) (hH : coreHash P p.func p.n = some H) (hHl : ∀ x, (H x).length = p.n)
    {k : Key} (hk : k.Valid p) {n : Nat} {body : Bytes} (af : AfterF f p H k n body)
    (h1 : f = .xmssmt → n + 1 < 2 ^ p.full_height → n + 1 < B p.tree_height (p.tree_height / 2 + 2))
    (h2 : f = .xmssmt → 2 ^ p.full_height ≤ n → 2 ^ p.full_height < 256 ^ p.index_bytes) (c : Call)
    (hc : p.sig_bytes + c.msg.length ≤ c.sm.length) :
    ∃ (o : FastOut) (l : List (Nat × Bytes)), f.signFastT P (Rfc.toByte oid 4 ++ body) c.sm c.smlen0 c.msg = some ({ o with sk := Rfc.toByte oid 4 ++ o.sk }, l) ∧
      AfterF f p H k (n + 1) o.sk ∧ PostInputs p H k n c.msg l := by
  obtain ⟨g, _, ho, _, _, _⟩ := parseFast_good hp
  obtain ⟨o, e, af'⟩ : ∃ o : FastOut, f.signFast P (Rfc.toByte oid 4 ++ body) c.sm c.smlen0 c.msg = some { o with sk := Rfc.toByte oid 4 ++ o.sk } ∧
      AfterF f p H k (n + 1) o.sk := by
    cases f with
    | xmss =>
      have hu : min p.insts (p.tree_height - 2) ≤ 2 * (p.insts / 2) := by unfold Params.insts; omega
      obtain ⟨o, e, a, _⟩ := After1.step (parseFast_fast1 hp) hu hHl hk af c hc
      exact ⟨o, apiSignFast_eq (parse := parseXmssFast) hp ho hH e, a⟩
    | xmssmt =>
      obtain ⟨o, e, a, _⟩ := AfterMt.step (parseFast_mt hp) hHl hk af (h1 rfl) (h2 rfl) c hc
      exact ⟨o, apiSignFast_eq (parse := parseXmssmtFast) hp ho hH e, a⟩
  have hv := (C78_same P f).2 (Rfc.toByte oid 4 ++ body) c.sm c.smlen0 c.msg
  rw [e] at hv
  cases ht : f.signFastT (κ := Nat × Bytes) P (Rfc.toByte oid 4 ++ body) c.sm c.smlen0 c.msg with
  | none => rw [ht] at hv; cases hv
  | some r =>
    obtain ⟨o', l⟩ := r
    rw [ht] at hv
    cases hv
    refine ⟨o, l, rfl, af', ?_⟩
    by_cases hn : n < 2 ^ p.full_height
    · obtain ⟨st, sg, sh, rfl, hr⟩ := afterF_states hp hHl af hn fun hf h => h1 hf (by omega)
      have hq := (signFast_ht hp hH hHl hk (by have := g.idx_fits; omega) sh hr _ _ _ _ _ ht).2
      refine ⟨fun hi c hc => ?_, fun hi c hc => ?_, fun hi => by omega⟩
      · have := (hq c hc).1
        rwa [usedKey, if_pos (by omega)] at this
      · have := (hq c hc).1
        rwa [usedKey, if_neg (by omega)] at this
    · obtain ⟨k', idx, st, sg, hk', hidx, hge, sh, rfl⟩ := afterF_over hp af (by omega) fun hf => h2 hf (by omega)
      have hq := (signFast_ht hp hH hHl hk' hidx sh (fun h => by omega) _ _ _ _ _ ht).2
      refine ⟨by omega, by omega, fun _ => List.eq_nil_iff_forall_not_mem.mpr fun c hc => ?_⟩
      have := (hq c hc).2
      omega

theorem fastAll (hp : f.parseFast oid = some p) (hH : coreHash P p.func p.n = some H) (hHl : ∀ x, (H x).length = p.n)
    {k : Key} (hk : k.Valid p) : ∀ (cs : List Call) (n : Nat) (body : Bytes), AfterF f p H k n body →
    (f = .xmssmt → ∀ j < cs.length, n + j + 1 < 2 ^ p.full_height → n + j + 1 < B p.tree_height (p.tree_height / 2 + 2)) →
    (f = .xmssmt → ∀ j < cs.length, 2 ^ p.full_height ≤ n + j → 2 ^ p.full_height < 256 ^ p.index_bytes) →
    (∀ c ∈ cs, p.sig_bytes + c.msg.length ≤ c.sm.length) →
    ∃ rs, signAllFastI P f (Rfc.toByte oid 4 ++ body) cs = some rs ∧ rs.length = cs.length ∧
      ∀ j c, cs[j]? = some c → ∃ o l, rs[j]? = some (o, l) ∧ PostInputs p H k (n + j) c.msg l
  | [], n, body, _, _, _, _ => ⟨[], rfl, rfl, by simp⟩
  | c :: cs, n, body, af, h1, h2, hs => by
    obtain ⟨o, l, e, af', post⟩ := fastStep hp hH hHl hk af (fun hf => h1 hf 0 (by simp)) (fun hf => h2 hf 0 (by simp)) c (hs c (by simp))
    obtain ⟨rs, r1, r2, r3⟩ := fastAll hp hH hHl hk cs (n + 1) o.sk af'
      (fun hf j hj => by rw [show n + 1 + j = n + (j + 1) by omega]; exact h1 hf (j + 1) (by simp; omega))
      (fun hf j hj => by rw [show n + 1 + j = n + (j + 1) by omega]; exact h2 hf (j + 1) (by simp; omega)) fun c hc => hs c (by simp [hc])
    refine ⟨({ o with sk := Rfc.toByte oid 4 ++ o.sk }, l) :: rs, ?_, by simp [r2], ?_⟩
    · rw [signAllFastI, e]
      simp only [resultOf, inputsOf, Option.map_some, Option.bind_eq_bind, Option.bind_some, r1]
    · intro j c' hj
      cases j with
      | zero =>
        rw [List.getElem?_cons_zero, Option.some.injEq] at hj
        subst hj
        exact ⟨_, l, rfl, post⟩
      | succ j =>
        rw [List.getElem?_cons_succ] at hj ⊢
        obtain ⟨o, l, e, q⟩ := r3 j c' hj
        exact ⟨o, l, e, by rwa [show n + (j + 1) = n + 1 + j by omega]⟩

end HashInputs
open HashInputs

/-- **C78 (key generation).**  Whatever was in the buffers: every string hashed by key generation of the fast implementation is one of
those of RFC 8391 for the trees of the key, and the length passed to the hash function is the length of that string. -/
theorem C78_keygen (hp : f.parseFast oid = some p) (hH : coreHash P p.func p.n = some H) (pk0 sk0 : Bytes)
    (hsk : sk0.length = 4 + p.sk_bytes) (seed : Nat → Bytes)
    (l : List (Nat × Bytes)) (hl : inputsOf (f.keypairFastT P pk0 sk0 oid seed) = some l) :
    ∀ c ∈ l, c.1 = c.2.length ∧ TreeCall (suiteOf p H) ((seed p.n).take p.n) (((seed p.n).drop (2 * p.n)).take p.n) c.2 := by
  cases h : f.keypairFastT (κ := Nat × Bytes) P pk0 sk0 oid seed with
  | none => rw [h] at hl; cases hl
  | some r =>
    rw [h] at hl
    cases hl
    exact (keypairFast_ht hp hH pk0 sk0 hsk seed r.1 r.2 h).2

/-- **C78 (the life of a key).**  Key generation and then any number of sign calls on messages `M_0, M_1, ...` (histories covered:
`FastCovered`): every string hashed by key generation is one of those for the trees of the key; every string hashed by call `j`
is one of those for the trees of the key or the randomizer or message hash of the signature with number `j` on `M_j`, for
`j < 2^h - 1`.  With the last index the key has been overwritten with zeros before, so the strings are those of the zero key;
after that nothing is hashed. -/
theorem C78_life (hp : f.parseFast oid = some p) (hH : coreHash P p.func p.n = some H) (pk0 sk0 : Bytes)
    (hpk : pk0.length = 4 + p.pk_bytes) (hsk : sk0.length = 4 + p.sk_bytes) (seed : Nat → Bytes) (hs : (seed p.n).length = 3 * p.n) :
    ∃ (k : Key) (sk : Bytes) (l0 : List (Nat × Bytes)), k.Valid p ∧ k.Honest (suiteOf p H) ∧
      seed p.n = k.skSeed ++ k.skPrf ++ k.pubSeed ∧ f.keypairFast P pk0 sk0 oid seed = some (0, k.pk oid, sk) ∧
      inputsOf (f.keypairFastT P pk0 sk0 oid seed) = some l0 ∧
      (∀ c ∈ l0, c.1 = c.2.length ∧ TreeCall (suiteOf p H) k.skSeed k.pubSeed c.2) ∧
      ∀ cs : List Call, (∀ c ∈ cs, p.sig_bytes + c.msg.length ≤ c.sm.length) → FastCovered p cs →
        ∃ rs, signAllFastI P f sk cs = some rs ∧ rs.length = cs.length ∧
          ∀ j o l M, rs[j]? = some (o, l) → (cs.map Call.msg)[j]? = some M →
            (j < 2 ^ p.full_height - 1 →
              ∀ c ∈ l, c.1 = c.2.length ∧ SignCall (suiteOf p H) k.skSeed k.pubSeed k.skPrf k.root j M c.2) ∧
            (j = 2 ^ p.full_height - 1 → let z : Bytes := List.replicate p.n 0
              ∀ c ∈ l, c.1 = c.2.length ∧ SignCall (suiteOf p H) z z z z j M c.2) ∧
            (2 ^ p.full_height ≤ j → l = []) := by
  obtain ⟨g, _, _, _, _, _⟩ := parseFast_good hp
  obtain ⟨H', hH', hHl⟩ := Family.hashFast (P := P) hp
  rw [hH] at hH'
  obtain rfl := Option.some.inj hH'
  obtain ⟨k, st, sg, hv, hh, hseed, hkp, _, af, _⟩ := keygen_one hp hH hHl pk0 sk0 hpk hsk seed hs
  have hv1 := (C78_same P f).1 pk0 sk0 oid seed
  rw [hkp] at hv1
  cases h1 : f.keypairFastT (κ := Nat × Bytes) P pk0 sk0 oid seed with
  | none => rw [h1] at hv1; cases hv1
  | some r1 =>
    obtain ⟨a1, l1⟩ := r1
    refine ⟨k, _, l1, hv, hh, hseed, hkp, rfl, ?_, ?_⟩
    · intro c hc
      have := (keypairFast_ht hp hH pk0 sk0 hsk seed _ _ h1).2 c hc
      have e1 : (seed p.n).take p.n = k.skSeed := by rw [hseed, List.append_assoc]; exact List.take_left' hv.skSeed
      have e2 : ((seed p.n).drop (2 * p.n)).take p.n = k.pubSeed := by
        rw [hseed, List.drop_left' (by rw [List.length_append, hv.skSeed, hv.skPrf]; omega)]
        exact List.take_of_length_le (by rw [hv.pubSeed])
      rwa [e1, e2] at this
    · intro cs hcs hcov
      obtain ⟨rs, r1, r2, r3⟩ := fastAll hp hH hHl hv cs 0 _ af
        (fun _ j hj => by rw [Nat.zero_add]; exact fastLimit g hcov.2 j hj)
        (fun hf j hj => by subst hf; rw [Nat.zero_add]; exact fastFit hp hcov.1 j hj) hcs
      refine ⟨rs, r1, r2, fun j o l M hj hM => ?_⟩
      rw [List.getElem?_map, Option.map_eq_some_iff] at hM
      obtain ⟨c, hc, rfl⟩ := hM
      obtain ⟨o', l', e, post⟩ := r3 j c hc
      rw [hj, Nat.zero_add] at *
      cases e
      have hpos : 0 < 2 ^ p.full_height := Nat.two_pow_pos _
      exact ⟨fun h => post.ok (by omega), fun h => post.last (by omega), post.over⟩

/-- **C78 (one input per key).**  Of the strings hashed by key generation and the first `2^h - 1` sign calls of a history of the fast
implementation, two that both start with the prefix of F, or both with that of H, and go on with the same `n`-byte key are equal;
otherwise the hash function has a collision on two PRF inputs of this key, which differ in the 32 bytes of the address. -/
theorem C78_one_input (hp : f.parseFast oid = some p) (hH : coreHash P p.func p.n = some H) (pk0 sk0 : Bytes)
    (hpk : pk0.length = 4 + p.pk_bytes) (hsk : sk0.length = 4 + p.sk_bytes) (seed : Nat → Bytes) (hs : (seed p.n).length = 3 * p.n)
    (cs : List Call) (hcs : ∀ c ∈ cs, p.sig_bytes + c.msg.length ≤ c.sm.length) (hcov : FastCovered p cs)
    (hlen : cs.length ≤ 2 ^ p.full_height - 1) :
    ∃ pk sk l0 rs, f.keypairFast P pk0 sk0 oid seed = some (0, pk, sk) ∧ inputsOf (f.keypairFastT P pk0 sk0 oid seed) = some l0 ∧
      signAllFastI P f sk cs = some rs ∧ rs.length = cs.length ∧
      ∀ r, r = 0 ∨ r = 1 → ∀ c ∈ l0 ++ (rs.map Prod.snd).flatten, ∀ c' ∈ l0 ++ (rs.map Prod.snd).flatten,
      c.2.take p.padding_len = Rfc.toByte r p.padding_len → c'.2.take p.padding_len = Rfc.toByte r p.padding_len →
      (c.2.drop p.padding_len).take p.n = (c'.2.drop p.padding_len).take p.n →
      c = c' ∨ ∃ a b : Bytes, a.length = 32 ∧ b.length = 32 ∧ a ≠ b ∧
        H (Rfc.toByte 3 p.padding_len ++ (seed p.n).drop (2 * p.n) ++ a) = H (Rfc.toByte 3 p.padding_len ++ (seed p.n).drop (2 * p.n) ++ b) := by
  obtain ⟨g, _, _, _, _, _⟩ := parseFast_good hp
  obtain ⟨H', hH', hHl⟩ := Family.hashFast (P := P) hp
  rw [hH] at hH'
  obtain rfl := Option.some.inj hH'
  have hpad : 0 < p.padding_len := by
    have : 4 ≤ p.padding_len := by
      cases f with
      | xmss => exact C11_padding _ oid p (Or.inl hp)
      | xmssmt => exact C11_padding _ oid p (Or.inr hp)
    omega
  obtain ⟨k, sk, l0, hv, _, hseed, hkp, hl0, hq0, hist⟩ := C78_life hp hH pk0 sk0 hpk hsk seed hs
  obtain ⟨rs, h1, h2, h3⟩ := hist cs hcs hcov
  refine ⟨_, sk, l0, rs, hkp, hl0, h1, h2, ?_⟩
  have hq : ∀ c ∈ l0 ++ (rs.map Prod.snd).flatten, c.1 = c.2.length ∧ OwnersString (suiteOf p H) k (cs.map Call.msg) c.2 := by
    intro c hc
    rcases List.mem_append.mp hc with hc | hc
    · exact ⟨(hq0 c hc).1, Or.inl (hq0 c hc).2⟩
    · obtain ⟨l, hl, hc⟩ := List.mem_flatten.mp hc
      obtain ⟨⟨o, l'⟩, hr, rfl⟩ := List.mem_map.mp hl
      obtain ⟨j, hj, e⟩ := List.mem_iff_getElem.mp hr
      have hj' : j < (cs.map Call.msg).length := by rw [List.length_map]; omega
      have hM := List.getElem?_eq_getElem hj'
      have := (h3 j o l' _ (by rw [List.getElem?_eq_getElem hj, e]) hM).1 (by omega) c hc
      exact ⟨this.1, Or.inr ⟨j, _, hM, this.2⟩⟩
  intro r hr c hc c' hc' h0 h0' hk
  have e : (seed p.n).drop (2 * p.n) = k.pubSeed := by
    rw [hseed, List.drop_left' (by rw [List.length_append, hv.skSeed, hv.skPrf]; omega)]
  rw [e]
  rcases one_input_good g hHl hpad k (cs.map Call.msg) r hr c.2 c'.2 (hq c hc).2 (hq c' hc').2 h0 h0' hk with h | h
  · left
    exact Prod.ext (by rw [(hq c hc).1, (hq c' hc').1, h]) h
  · exact Or.inr h

/-- The hypotheses of `C78_life` and `C78_one_input` are met by a key of XMSSMT-SHA2_20/4_256 and two messages, in any buffers. -/
example (P : Prims) : ∃ p H, Family.xmssmt.parseFast 2 = some p ∧ coreHash P p.func p.n = some H ∧ p.d = 4 ∧
    let cs : List Call := [⟨List.replicate (p.sig_bytes + 3) 0, 0, [1, 2, 3]⟩, ⟨List.replicate p.sig_bytes 7, 0, []⟩]
    (∀ c ∈ cs, p.sig_bytes + c.msg.length ≤ c.sm.length) ∧ FastCovered p cs ∧ cs.length ≤ 2 ^ p.full_height - 1 := by
  obtain ⟨p, hp, he, hd, hth⟩ : ∃ p, Family.xmssmt.parseFast 2 = some p ∧ p.full_height = 20 ∧ p.d = 4 ∧ p.tree_height = 5 := by
    refine ⟨_, rfl, ?_⟩
    decide +kernel
  obtain ⟨H, hH, _⟩ := Family.hashFast (P := P) hp
  refine ⟨p, H, hp, hH, hd, ?_, ⟨by omega, Or.inl (by rw [hd, hth])⟩, by rw [he]; exact (by decide : 2 ≤ 2 ^ 20 - 1)⟩
  intro c hc
  simp only [List.mem_cons, List.not_mem_nil, or_false] at hc
  rcases hc with rfl | rfl <;> simp

end Xmss
