import Verif.Props.HashCallsFastSame
import Verif.Props.FastMtFails
import Verif.Props.StrongForgery
/-
C75 for the sets with at least five layers of height five (40/8, 60/12): all defined histories, also from index 2^20 on.
-/
namespace Xmss
open Tr Sched HashCalls

variable {P P' : Prims} {oid : Nat} {p : Params} {H H' : Bytes → Bytes} {c : Prop}

/-- What the fast implementation signs as the root of the next tree of layer `i` when call number `j` (from 0) ends a tree of that
layer, for the sets with trees of height five: the root, except at the end of the first tree of layer 3, where the next tree has only 31
of its 32 leaves and the node over its first 16 leaves is signed. -/
def signedRoot (S : Rfc.Suite) (skSeed pubSeed : Bytes) (i j : Nat) : Bytes :=
  if i = 3 ∧ j + 1 = 2 ^ 20 then S.node skSeed pubSeed 3 1 4 0 else S.treeRoot skSeed pubSeed i ((j + 1) / 2 ^ (5 * (i + 1)))

namespace HashCalls

/-- Where the bottom of the node stack of 31 leaves is. -/
theorem IsStk.bottom31 {N : Nat → Nat → Bytes} {L : List (Bytes × Nat)} (h : IsStk N 0 31 L) :
    L = [(N 0 30, 0), (N 1 14, 1), (N 2 6, 2), (N 3 2, 3), (N 4 0, 4)] := by
  obtain ⟨L1, rfl, h1⟩ := IsStk.inv_odd (m := 15) h
  obtain ⟨L2, rfl, h2⟩ := IsStk.inv_odd (m := 7) h1
  obtain ⟨L3, rfl, h3⟩ := IsStk.inv_odd (m := 3) h2
  obtain ⟨L4, rfl, h4⟩ := IsStk.inv_odd (m := 1) h3
  obtain ⟨L5, rfl, h5⟩ := IsStk.inv_odd (m := 0) h4
  rw [h5.of_zero rfl]

/-- What is signed when trees change. -/
theorem root_signed_mix (f : FastMt p) (ht : p.tree_height = 5) (h5 : 5 ≤ p.d) (hd100 : p.d ≤ 100) (hH : ∀ x, (H x).length = p.n) {k : Key}
    {n : Nat} (hn : n + 1 < 2 ^ 20 + 2 ^ 18) {st s1 : List BdsState} {sg : List Bytes} {x0 : Option Bytes}
    (mi : MixInv H p k.skSeed k.pubSeed x0 n st sg) (h1 : nextZero H p k.skSeed k.pubSeed n st = some s1) {j : Nat}
    (hj : j < p.d) (hd : B p.tree_height (j + 1) ∣ n + 1) {s : BdsState} {x : Bytes} (hs : s1[p.d + j]? = some s) (hx : s.stack[0]? = some x) :
    x = signedRoot (suiteOf p H) k.skSeed k.pubSeed j n := by
  have g := f.good
  have hins := f.insts
  have hlast : n + 1 < 2 ^ p.full_height := by
    have h1 : 25 ≤ p.full_height := by rw [← g.height, ht]; omega
    have h2 : 2 ^ 25 ≤ 2 ^ p.full_height := Nat.pow_le_pow_right (by omega) h1
    omega
  obtain ⟨A, cc, m⟩ := mi
  obtain ⟨s2, c2, e, _, hin, hl, _⟩ := nextZero_eq f hH (mixQ_zero n) m
  have e' : nextZero H p k.skSeed k.pubSeed n st = some s2 := e
  rw [h1, Option.some.injEq] at e'
  subst e'
  have hd5 := hd
  rw [ht] at hd5
  obtain ⟨hj3, hj3'⟩ := dvd_low (by omega) hd5
  obtain ⟨cur, _, hq⟩ := hl j hj
  rw [MixQ, if_neg (by intro hc; have := hj3' hc.1; omega)] at hq
  obtain ⟨nx, hnx, _, _, bi, _⟩ := hq.2 (by omega)
  rw [hs, Option.some.injEq] at hnx
  subst hnx
  by_cases h3 : j = 3
  · subst h3
    have hi := hj3' rfl
    have hc : c2 3 = 31 := by
      rw [hin.2.2 3 (by omega), m.plan.nlTop (by rw [hins, ht, hi]; decide) (by omega) hd100 3 (by rw [hins, ht]; omega) (by omega), hins, ht, hi]
      decide
    rw [hc] at bi
    obtain ⟨L, hr, hk⟩ := bi.stack
    rw [IsStk.bottom31 hk] at hr
    have hb := hr.stack
    rw [signedRoot, if_pos ⟨rfl, by omega⟩]
    have : n / B p.tree_height (3 + 1) + 1 = 1 := by
      rw [ht, hi]; decide
    rw [this] at hb
    have h0 := hb.pop.pop.pop.pop.top
    simp only [List.map_nil, List.length_nil] at h0
    rw [hx, Option.some.injEq] at h0
    exact h0
  · have hready := m.plan.ready hin hj (by rw [B, g.height]; exact hlast) (by rw [hins, ht]; omega) hd
    rw [hready] at bi
    obtain ⟨hroot, _⟩ := bi.takeOver g.th_lt
    rw [hx, Option.some.injEq] at hroot
    rw [hroot, signedRoot, if_neg (fun h => h3 h.1), Rfc.Suite.treeRoot, g.hp_eq, ← ht, ← B, Nat.succ_div_of_dvd hd]

/-- At the start. -/
theorem AfterMix.zero {k : Key} {body : Bytes} (af : AfterMt p H k 0 body) : AfterMix p H k none 0 body := by
  rw [AfterMt, if_pos (Nat.two_pow_pos _)] at af
  obtain ⟨st, sg, ⟨A, c, m⟩, e⟩ := af
  refine ⟨st, sg, ⟨A, c, m.states_len, m.sigs_len, ?_, m.plan⟩, e⟩
  intro i hi
  obtain ⟨cur, h1, h2⟩ := m.layer i hi
  refine ⟨cur, h1, ?_⟩
  rw [MixQ, if_neg (by omega), show z3 none = fun _ => none from funext fun i => by unfold z3; split <;> rfl]
  exact h2

/-- One call. -/
theorem sign_twin_mix (hp : parseXmssmtFast oid = some p) (ht : p.tree_height = 5) (h5 : 5 ≤ p.d) (hHl : ∀ x, (H x).length = p.n)
    (hHl' : ∀ x, (H' x).length = p.n) {k k' : Key} (hk : k.Valid p) (hk' : k'.Valid p) {n : Nat} (hn : n + 1 < 2 ^ 20 + 2 ^ 18)
    {body body' : Bytes} (t : Twin p k k' n body body') (af : AfterMix p H k none n body) (af' : AfterMix p H' k' none n body')
    (a b : Call) (ha : p.sig_bytes + a.msg.length ≤ a.sm.length) (hb : p.sig_bytes + b.msg.length ≤ b.sm.length) :
    ∃ (o o' : FastOut) (l l' : List Nat), fastXmssmtSignT H p body a.sm a.smlen0 a.msg = mk o l ∧ fastXmssmtSignT H' p body' b.sm b.smlen0 b.msg = mk o' l' ∧
      Twin p k k' (n + 1) o.sk o'.sk ∧ AfterMix p H k none (n + 1) o.sk ∧ AfterMix p H' k' none (n + 1) o'.sk ∧
      (Agree p H H' k k' n a.msg b.msg → (∀ i < p.d, 2 ^ (5 * (i + 1)) ∣ n + 1 →
        chainSteps (suiteOf p H) (signedRoot (suiteOf p H) k.skSeed k.pubSeed i n) =
        chainSteps (suiteOf p H') (signedRoot (suiteOf p H') k'.skSeed k'.pubSeed i n)) → l = l') := by
  have f1 := parseFast_mt hp
  have g := f1.good
  have hd := mt_d_le hp
  have hi : n < 2 ^ p.full_height - 1 := by
    have h1 : 25 ≤ p.full_height := by rw [← g.height, ht]; omega
    have h2 : 2 ^ 25 ≤ 2 ^ p.full_height := Nat.pow_le_pow_right (by omega) h1
    omega
  have aux : ∀ {H : Bytes → Bytes} {k : Key} {body : Bytes}, (∀ x, (H x).length = p.n) → k.Valid p → AfterMix p H k none n body →
      ∀ st sg s1, body = k.fast p n st sg → ExtShape p st sg →
      nextZero H p k.skSeed k.pubSeed n (st.map fun s => { s with leaves := 0 }) = some s1 → ∀ j < p.d,
      B p.tree_height (j + 1) ∣ n + 1 → ∀ s x, s1[p.d + j]? = some s → s.stack[0]? = some x →
      x = signedRoot (suiteOf p H) k.skSeed k.pubSeed j n := by
    intro H k body hHl hk af st sg s1 hb sh h1 j hj hdv s x hs hx
    obtain ⟨st2, sg2, mi, e2⟩ := af
    obtain ⟨q1, rfl⟩ := fast_inj hk sh (mi.ext g hHl) (hb.symm.trans e2)
    rw [q1] at h1
    exact root_signed_mix f1 ht h5 hd hHl hn (mi.with_leaves 0) h1 hj hdv hs hx
  have r := fastXmssmtSignT_twin (c := Agree p H H' k k' n a.msg b.msg ∧ ∀ i < p.d, 2 ^ (5 * (i + 1)) ∣ n + 1 →
        chainSteps (suiteOf p H) (signedRoot (suiteOf p H) k.skSeed k.pubSeed i n) =
        chainSteps (suiteOf p H') (signedRoot (suiteOf p H') k'.skSeed k'.pubSeed i n))
      f1 hHl hHl' hk hk' hi t a.sm b.sm a.smlen0 b.smlen0 _ _ ha hb (fun c => c.1.head)
      (fun c st st' sg sg' s1 s1' hb1 hb1' sh sh' h1 h1' => by
        intro j _ hj hm hlt s s' x x' hs hs' hx hx'
        rw [mask_dvd] at hm
        rw [aux hHl hk af st sg s1 hb1 sh h1 j (by omega) hm s x hs hx,
          aux hHl' hk' af' st' sg' s1' hb1' sh' h1' j (by omega) hm s' x' hs' hx']
        rw [ht] at hm
        exact c.2 j (by omega) hm)
  obtain ⟨st, sg, mi, rfl⟩ := af
  obtain ⟨st', sg', mi', rfl⟩ := af'
  obtain ⟨_, _, _, _, m1, e, _⟩ := fastXmssmtSign_mix f1 ht h5 hd hHl hk hn mi a.sm a.smlen0 a.msg ha
  obtain ⟨_, _, _, _, m1', e', _⟩ := fastXmssmtSign_mix f1 ht h5 hd hHl' hk' hn mi' b.sm b.smlen0 b.msg hb
  obtain ⟨l, l', t1, t2, t3, t4⟩ := twin_defined r (by rw [fastXmssmtSignT_val]; exact e) (by rw [fastXmssmtSignT_val]; exact e')
  exact ⟨_, _, l, l', t1, t2, t3, ⟨_, _, m1, rfl⟩, ⟨_, _, m1', rfl⟩, fun h h' => t4 ⟨h, h'⟩⟩

/-- Two histories of the same length. -/
theorem histories_mix (hp : parseXmssmtFast oid = some p) (ht : p.tree_height = 5) (h5 : 5 ≤ p.d)
    (hH : coreHash P p.func p.n = some H) (hH' : coreHash P' p.func p.n = some H')
    (hHl : ∀ x, (H x).length = p.n) (hHl' : ∀ x, (H' x).length = p.n)
    {k k' : Key} (hk : k.Valid p) (hk' : k'.Valid p) : ∀ (cs cs' : List Call) (n : Nat) (body body' : Bytes),
    cs.length = cs'.length → n + cs.length < 2 ^ 20 + 2 ^ 18 →
    (∀ c ∈ cs, p.sig_bytes + c.msg.length ≤ c.sm.length) → (∀ c ∈ cs', p.sig_bytes + c.msg.length ≤ c.sm.length) →
    Twin p k k' n body body' → AfterMix p H k none n body → AfterMix p H' k' none n body' →
    ∃ rs rs', signAllFastT P .xmssmt (Rfc.toByte oid 4 ++ body) cs = some rs ∧
      signAllFastT P' .xmssmt (Rfc.toByte oid 4 ++ body') cs' = some rs' ∧
      rs.length = cs.length ∧ rs'.length = cs'.length ∧
      ∀ (j : Nat) (a b : Call) (o o' : FastOut) (l l' : List Nat), cs[j]? = some a → cs'[j]? = some b → rs[j]? = some (o, l) →
        rs'[j]? = some (o', l') → Agree p H H' k k' (n + j) a.msg b.msg → (∀ i < p.d, 2 ^ (5 * (i + 1)) ∣ n + j + 1 →
          chainSteps (suiteOf p H) (signedRoot (suiteOf p H) k.skSeed k.pubSeed i (n + j)) =
          chainSteps (suiteOf p H') (signedRoot (suiteOf p H') k'.skSeed k'.pubSeed i (n + j))) → l = l'
  | [], [], n, body, body', _, _, _, _, _, _, _ => ⟨[], [], rfl, rfl, rfl, rfl, by simp⟩
  | [], _ :: _, _, _, _, h, _, _, _, _, _, _ => by simp at h
  | _ :: _, [], _, _, _, h, _, _, _, _, _, _ => by simp at h
  | a :: cs, b :: cs', n, body, body', hl, hn, hs, hs', t, af, af' => by
    simp only [List.length_cons] at hl hn
    obtain ⟨o, o', l, l', e1, e2, t1, af1, af1', hc⟩ := sign_twin_mix hp ht h5 hHl hHl' hk hk' (by omega) t
      af af' a b (hs a (by simp)) (hs' b (by simp))
    obtain ⟨rs, rs', r1, r2, r3, r4, r5⟩ := histories_mix hp ht h5 hH hH' hHl hHl' hk hk' cs cs' (n + 1) o.sk o'.sk (by omega) (by omega)
      (fun c hc => hs c (by simp [hc])) (fun c hc => hs' c (by simp [hc])) t1 af1 af1'
    have s1 : Family.signFastT P .xmssmt (Rfc.toByte oid 4 ++ body) a.sm a.smlen0 a.msg = mk { o with sk := Rfc.toByte oid 4 ++ o.sk } l := by
      rw [signFastT_core (f := .xmssmt) hp hH, show coreFastT .xmssmt H p body a.sm a.smlen0 a.msg = mk o l from e1, bind_mk, pure_eq, tell_mk_nil]
    have s2 : Family.signFastT P' .xmssmt (Rfc.toByte oid 4 ++ body') b.sm b.smlen0 b.msg = mk { o' with sk := Rfc.toByte oid 4 ++ o'.sk } l' := by
      rw [signFastT_core (f := .xmssmt) hp hH', show coreFastT .xmssmt H' p body' b.sm b.smlen0 b.msg = mk o' l' from e2, bind_mk, pure_eq, tell_mk_nil]
    refine ⟨({ o with sk := Rfc.toByte oid 4 ++ o.sk }, l) :: rs, ({ o' with sk := Rfc.toByte oid 4 ++ o'.sk }, l') :: rs', ?_, ?_,
      by simp [r3], by simp [r4], ?_⟩
    · rw [signAllFastT, s1]
      simp only [valueOf, callsOf, mk, Option.map_some, Option.bind_eq_bind, Option.bind_some, r1]
    · rw [signAllFastT, s2]
      simp only [valueOf, callsOf, mk, Option.map_some, Option.bind_eq_bind, Option.bind_some, r2]
    · intro j a' b' q q' m m' h1 h2 h3 h4
      cases j with
      | zero =>
        rw [List.getElem?_cons_zero, Option.some.injEq] at h1 h2 h3 h4
        subst h1 h2
        obtain ⟨rfl, rfl⟩ := Prod.mk.inj h3
        obtain ⟨rfl, rfl⟩ := Prod.mk.inj h4
        exact hc
      | succ j =>
        rw [List.getElem?_cons_succ] at h1 h2 h3 h4
        have := r5 j a' b' q q' m m' h1 h2 h3 h4
        rwa [show n + 1 + j = n + (j + 1) by omega] at this

end HashCalls
open HashCalls

/-- **C75 (40/8 and 60/12, all defined histories).**  The parameter sets with at least five layers of height five.  Every history of
fewer than `2^20 + 2^18` calls is defined (every longer one is not, C34_fails), and two calls with the same number make the same
sequence of hash calls when the messages have the same length, their digests take the same number of chain steps, and so do the values
that are signed as roots of next trees (`signedRoot`) where trees end. -/
theorem C75_window (hp : parseXmssmtFast oid = some p) (ht : p.tree_height = 5) (h5 : 5 ≤ p.d)
    (hH : coreHash P p.func p.n = some H) (hH' : coreHash P' p.func p.n = some H') (pk0 sk0 pk0' sk0' : Bytes)
    (hpk : pk0.length = 4 + p.pk_bytes) (hsk : sk0.length = 4 + p.sk_bytes) (hpk' : pk0'.length = 4 + p.pk_bytes)
    (hsk' : sk0'.length = 4 + p.sk_bytes) (seed seed' : Nat → Bytes) (hs : (seed p.n).length = 3 * p.n) (hs' : (seed' p.n).length = 3 * p.n) :
    ∃ (k k' : Key) (sk sk' : Bytes), seed p.n = k.skSeed ++ k.skPrf ++ k.pubSeed ∧ seed' p.n = k'.skSeed ++ k'.skPrf ++ k'.pubSeed ∧
      xmssmtKeypairFast P pk0 sk0 oid seed = some (0, k.pk oid, sk) ∧ xmssmtKeypairFast P' pk0' sk0' oid seed' = some (0, k'.pk oid, sk') ∧
      ∀ cs cs' : List Call, (∀ c ∈ cs, p.sig_bytes + c.msg.length ≤ c.sm.length) → (∀ c ∈ cs', p.sig_bytes + c.msg.length ≤ c.sm.length) →
        cs.length = cs'.length →
        (2 ^ 20 + 2 ^ 18 ≤ cs.length → signAllFast P .xmssmt sk cs = none ∧ signAllFast P' .xmssmt sk' cs' = none) ∧
        (cs.length < 2 ^ 20 + 2 ^ 18 →
        ∃ rs rs', signAllFastT P .xmssmt sk cs = some rs ∧ signAllFastT P' .xmssmt sk' cs' = some rs' ∧ rs.length = cs.length ∧
          rs'.length = cs'.length ∧
          ∀ (j : Nat) (c c' : Call) (o o' : FastOut) (l l' : List Nat), cs[j]? = some c → cs'[j]? = some c' → rs[j]? = some (o, l) →
            rs'[j]? = some (o', l') → c.msg.length = c'.msg.length →
            chainSteps (suiteOf p H) ((suiteOf p H).digest ((suiteOf p H).PRF k.skPrf (Rfc.toByte j 32)) k.root j c.msg) =
              chainSteps (suiteOf p H') ((suiteOf p H').digest ((suiteOf p H').PRF k'.skPrf (Rfc.toByte j 32)) k'.root j c'.msg) →
            (∀ i < p.d, 2 ^ (5 * (i + 1)) ∣ j + 1 →
              chainSteps (suiteOf p H) (signedRoot (suiteOf p H) k.skSeed k.pubSeed i j) =
              chainSteps (suiteOf p H') (signedRoot (suiteOf p H') k'.skSeed k'.pubSeed i j)) →
            l = l') := by
  obtain ⟨_, _, ho, _, _, _⟩ := parseFast_good (f := .xmssmt) hp
  obtain ⟨_, h1, hHl⟩ := Family.hashFast (P := P) (f := .xmssmt) hp
  obtain ⟨_, h2, hHl'⟩ := Family.hashFast (P := P') (f := .xmssmt) hp
  rw [hH] at h1
  rw [hH'] at h2
  obtain rfl := Option.some.inj h1
  obtain rfl := Option.some.inj h2
  obtain ⟨k, k', body, body', v, v', _, _, sd, sd', e, e', t, af, af'⟩ :=
    keygen_twin (f := .xmssmt) hp hH hH' hHl hHl' pk0 sk0 pk0' sk0' hpk hsk hpk' hsk' seed seed' hs hs'
  refine ⟨k, k', _, _, sd, sd', e, e', ?_⟩
  intro cs cs' hcs hcs' hl
  constructor
  · intro hlt
    exact ⟨mix_history_none hp (by omega) ht h5 (mt_d_le hp) hH hHl v cs 0 body (AfterMix.zero af) (by omega) (by omega) hcs,
      mix_history_none hp (by omega) ht h5 (mt_d_le hp) hH' hHl' v' cs' 0 body' (AfterMix.zero af') (by omega) (by omega) hcs'⟩
  · intro hlt
    obtain ⟨rs, rs', r1, r2, r3, r4, r5⟩ := histories_mix hp ht h5 hH hH' hHl hHl' v v' cs cs' 0 body body' hl (by omega) hcs hcs' t
      (AfterMix.zero af) (AfterMix.zero af')
    refine ⟨rs, rs', r1, r2, r3, r4, ?_⟩
    intro j c c' o o' l l' hc hc' hr hr' hm hd hroots
    have := r5 j c c' o o' l l' hc hc' hr hr'
    rw [Nat.zero_add] at this
    exact this ⟨hm, hd⟩ hroots

/-- Non-vacuity: XMSSMT-SHA2_40/8_256 with the worthless hash function that is constant.  Whatever the two seeds, two signers that sign
messages of the same lengths make the same hash calls, in all the calls that are defined, also beyond number `2^20`. -/
theorem C75_window_met (pk0 sk0 pk0' sk0' : Bytes) (hpk : pk0.length = 68) (hsk : sk0.length = 24520) (hpk' : pk0'.length = 68)
    (hsk' : sk0'.length = 24520) (seed seed' : Nat → Bytes) (hs : (seed 32).length = 96) (hs' : (seed' 32).length = 96) :
    ∃ pk sk pk' sk', xmssmtKeypairFast constPrims pk0 sk0 5 seed = some (0, pk, sk) ∧
      xmssmtKeypairFast constPrims pk0' sk0' 5 seed' = some (0, pk', sk') ∧
      ∀ cs cs' : List Call, cs.length = 2 ^ 20 + 7 → cs'.length = cs.length →
        (∀ c ∈ cs, c.msg.length = 40 ∧ 18469 + c.msg.length ≤ c.sm.length) → 
        (∀ c ∈ cs', c.msg.length = 40 ∧ 18469 + c.msg.length ≤ c.sm.length) →
        ∃ rs rs', signAllFastT constPrims .xmssmt sk cs = some rs ∧ signAllFastT constPrims .xmssmt sk' cs' = some rs' ∧
          rs.map Prod.snd = rs'.map Prod.snd := by
  obtain ⟨p, hp, hf, hn, hth, hd, hpkb, hskb, hsig⟩ : ∃ p, parseXmssmtFast 5 = some p ∧ p.func = .sha2 ∧ p.n = 32 ∧ p.tree_height = 5 ∧
      p.d = 8 ∧ p.pk_bytes = 64 ∧ p.sk_bytes = 24516 ∧ p.sig_bytes = 18469 := by
    refine ⟨_, rfl, ?_⟩
    decide +kernel
  have hH : coreHash constPrims p.func p.n = some fun _ => List.replicate 32 0 := by rw [hf, hn]; rfl
  obtain ⟨k, k', sk, sk', _, _, e, e', h⟩ := C75_window hp hth (by omega) hH hH pk0 sk0 pk0' sk0' (by omega) (by omega) (by omega) (by omega)
    seed seed' (by rw [hn]; exact hs) (by rw [hn]; exact hs')
  refine ⟨_, sk, _, sk', e, e', ?_⟩
  intro cs cs' hl hl' hcs hcs'
  obtain ⟨rs, rs', r1, r2, r3, r4, r5⟩ := (h cs cs' (fun c hc => by rw [hsig]; exact (hcs c hc).2)
    (fun c hc => by rw [hsig]; exact (hcs' c hc).2) hl'.symm).2 (by omega)
  refine ⟨rs, rs', r1, r2, ?_⟩
  apply List.ext_getElem?
  intro j
  rw [List.getElem?_map, List.getElem?_map]
  rcases Nat.lt_or_ge j cs.length with hj | hj
  · have hc := List.getElem?_eq_getElem hj
    have hc' := List.getElem?_eq_getElem (l := cs') (i := j) (by omega)
    have h1 := List.getElem?_eq_getElem (l := rs) (i := j) (by omega)
    have h2 := List.getElem?_eq_getElem (l := rs') (i := j) (by omega)
    rw [h1, h2, Option.map_some, Option.map_some, Option.some.injEq]
    refine r5 j _ _ _ _ _ _ hc hc' h1 h2 ?_ rfl ?_
    · rw [(hcs _ (List.getElem_mem hj)).1, (hcs' _ (List.getElem_mem (by omega : j < cs'.length))).1]
    · intro i _ _
      congr 1
      have nd : ∀ (a b : Bytes) (l t y x : Nat), (suiteOf p fun _ => List.replicate 32 0).node a b l t (y + 1) x = List.replicate 32 0 := fun _ _ _ _ _ _ => rfl
      have hhp : (suiteOf p fun _ => List.replicate 32 0).hp = 4 + 1 := ((parseFast_mt hp).good.hp_eq _).trans hth
      unfold signedRoot
      split
      · rw [nd _ _ _ _ 3, nd _ _ _ _ 3]
      · rw [Rfc.Suite.treeRoot, Rfc.Suite.treeRoot, hhp, nd, nd]
  · rw [List.getElem?_eq_none (by omega), List.getElem?_eq_none (by omega)]

end Xmss
