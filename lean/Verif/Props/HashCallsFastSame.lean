import Verif.Props.HashCallsFast
/-
C75: the sequence of hash calls of the fast implementation depends on nothing secret.
-/
namespace Xmss
open Tr Sched HashCalls

variable {P P' : Prims} {f : Family} {oid : Nat} {p : Params} {H H' : Bytes → Bytes} {c : Prop}

/-- Number of steps of the hash chains that a WOTS+ signature on `M` takes: a function of `M` alone. -/
def chainSteps (S : Rfc.Suite) (M : Bytes) : Nat := (S.wotsDigits M).sum

namespace HashCalls

/-- The key after `n` signatures. -/
def AfterF (f : Family) (p : Params) (H : Bytes → Bytes) (k : Key) (n : Nat) (body : Bytes) : Prop :=
  match f with
  | .xmss => After1 p H k n body
  | .xmssmt => AfterMt p H k n body

/-- The core function of the family, with record. -/
def coreFastT : Family → (Bytes → Bytes) → Params → Bytes → Bytes → Nat → Bytes → Tr FastOut
  | .xmss => fastXmssSignT
  | .xmssmt => fastXmssmtSignT

theorem signFastT_core (hp : f.parseFast oid = some p) (hH : coreHash P p.func p.n = some H) (body sm m : Bytes) (l0 : Nat) :
    f.signFastT P (Rfc.toByte oid 4 ++ body) sm l0 m =
      coreFastT f H p body sm l0 m >>= fun o => pure { o with sk := Rfc.toByte oid 4 ++ o.sk } := by
  obtain ⟨_, _, ho, _⟩ := parseFast_good hp
  cases f with
  | xmss => exact apiSignFastT_eq (parse := parseXmssFast) hp ho hH _ _ _ _
  | xmssmt => exact apiSignFastT_eq (parse := parseXmssmtFast) hp ho hH _ _ _ _

/-- What the two calls have in common. -/
structure Agree (p : Params) (H H' : Bytes → Bytes) (k k' : Key) (n : Nat) (m m' : Bytes) : Prop where
  len : m.length = m'.length
  digest : chainSteps (suiteOf p H) ((suiteOf p H).digest ((suiteOf p H).PRF k.skPrf (Rfc.toByte n 32)) k.root n m) =
    chainSteps (suiteOf p H') ((suiteOf p H').digest ((suiteOf p H').PRF k'.skPrf (Rfc.toByte n 32)) k'.root n m')

theorem Agree.head {k k' : Key} {n : Nat} {m m' : Bytes} (a : Agree p H H' k k' n m m') :
    headCalls p H k n m = headCalls p H' k' n m' := headCalls_eq a.len a.digest

/-- One call, any states. -/
theorem sign_twin_any (hp : f.parseFast oid = some p) (hHl : ∀ x, (H x).length = p.n) (hHl' : ∀ x, (H' x).length = p.n)
    {k k' : Key} (hk : k.Valid p) (hk' : k'.Valid p) {n : Nat} (hn : n + 1 < 2 ^ p.full_height) {body body' : Bytes}
    (t : Twin p k k' n body body') (a b : Call) (ha : p.sig_bytes + a.msg.length ≤ a.sm.length)
    (hb : p.sig_bytes + b.msg.length ≤ b.sm.length) :
    RelR (Agree p H H' k k' n a.msg b.msg ∧ ¬ 2 ^ p.tree_height ∣ n + 1) (fun o o' => Twin p k k' (n + 1) o.sk o'.sk)
      (coreFastT f H p body a.sm a.smlen0 a.msg) (coreFastT f H' p body' b.sm b.smlen0 b.msg) := by
  cases f with
  | xmss =>
    exact fastXmssSignT_twin (parseFast_fast1 hp) hHl hHl' hk hk' (by omega) t _ _ _ _ _ _ ha hb fun c => c.1.head
  | xmssmt =>
    exact fastXmssmtSignT_twin (parseFast_mt hp) hHl hHl' hk hk' (by omega) t _ _ _ _ _ _ ha hb (fun c => c.1.head)
      fun c _ _ _ _ _ _ _ _ _ _ _ _ => rootsAgree_inner c.2 _ _

/-- The states are determined by the key bytes. -/
theorem fast_inj {k : Key} (hk : k.Valid p) {n : Nat} {st st' : List BdsState} {sg sg' : List Bytes} (sh : ExtShape p st sg)
    (sh' : ExtShape p st' sg') (h : k.fast p n st sg = k.fast p n st' sg') :
    (st.map fun s => { s with leaves := 0 }) = (st'.map fun s => { s with leaves := 0 }) ∧ sg = sg' := by
  have hl := skHead_length (toByte_length n p.index_bytes) hk.skSeed hk.skPrf hk.root hk.pubSeed
  have e := deserialize_eq sh _ [] hl
  have e' := deserialize_eq sh' _ [] hl
  rw [List.append_nil] at e e'
  rw [Key.fast, Key.fast] at h
  rw [h, e'] at e
  simp only [Option.some.injEq, Prod.mk.injEq] at e
  exact ⟨e.1.symm, e.2.symm⟩

/-- Both sides are known to be defined. -/
theorem twin_defined {R : FastOut → FastOut → Prop} {t u : Tr FastOut} (h : RelR c R t u) {o o' : FastOut} (e : val t = some o)
    (e' : val u = some o') : ∃ l l', t = mk o l ∧ u = mk o' l' ∧ R o o' ∧ (c → l = l') := by
  rcases h with ⟨rfl, rfl⟩ | ⟨a, l, b, l', rfl, rfl, h, hl⟩
  · cases e
  · cases e
    cases e'
    exact ⟨l, l', rfl, rfl, h, hl⟩

/-- One call on good states. -/
theorem sign_twin (hp : f.parseFast oid = some p) (hHl : ∀ x, (H x).length = p.n) (hHl' : ∀ x, (H' x).length = p.n)
    {k k' : Key} (hk : k.Valid p) (hk' : k'.Valid p) {n : Nat} (hn : n + 1 < 2 ^ p.full_height) {body body' : Bytes}
    (t : Twin p k k' n body body') (hlim : n + 1 < B p.tree_height (p.tree_height / 2 + 2) ∨ f = .xmss)
    (af : AfterF f p H k n body) (af' : AfterF f p H' k' n body')
    (a b : Call) (ha : p.sig_bytes + a.msg.length ≤ a.sm.length) (hb : p.sig_bytes + b.msg.length ≤ b.sm.length) :
    ∃ o o' l l', coreFastT f H p body a.sm a.smlen0 a.msg = mk o l ∧ coreFastT f H' p body' b.sm b.smlen0 b.msg = mk o' l' ∧
      Twin p k k' (n + 1) o.sk o'.sk ∧ AfterF f p H k (n + 1) o.sk ∧ AfterF f p H' k' (n + 1) o'.sk ∧
      PostFast p H k n a o ∧ PostFast p H' k' n b o' ∧
      (Agree p H H' k k' n a.msg b.msg → (∀ i < p.d, 2 ^ (p.tree_height * (i + 1)) ∣ n + 1 →
        chainSteps (suiteOf p H) ((suiteOf p H).treeRoot k.skSeed k.pubSeed i ((n + 1) / 2 ^ (p.tree_height * (i + 1)))) =
        chainSteps (suiteOf p H') ((suiteOf p H').treeRoot k'.skSeed k'.pubSeed i ((n + 1) / 2 ^ (p.tree_height * (i + 1))))) →
        l = l') := by
  obtain ⟨g, _, _, _, _, _⟩ := parseFast_good hp
  cases f with
  | xmss =>
    have f1 := parseFast_fast1 hp
    have hu : min p.insts (p.tree_height - 2) ≤ 2 * (p.insts / 2) := by unfold Params.insts; omega
    obtain ⟨o, e, af1, post⟩ := After1.step f1 hu hHl hk af a ha
    obtain ⟨o', e', af1', post'⟩ := After1.step f1 hu hHl' hk' af' b hb
    have r := fastXmssSignT_twin (c := Agree p H H' k k' n a.msg b.msg) f1 hHl hHl' hk hk' (by omega) t a.sm b.sm a.smlen0 b.smlen0
      _ _ ha hb fun c => c.head
    obtain ⟨l, l', t1, t2, t3, t4⟩ := twin_defined r (by rw [fastXmssSignT_val]; exact e) (by rw [fastXmssSignT_val]; exact e')
    exact ⟨o, o', l, l', t1, t2, t3, af1, af1', ⟨post.ok, post.last, post.over, post.size⟩,
      ⟨post'.ok, post'.last, post'.over, post'.size⟩, fun h _ => t4 h⟩
  | xmssmt =>
    have f1 := parseFast_mt hp
    have hlim := hlim.resolve_right nofun
    obtain ⟨o, e, af1, post⟩ := AfterMt.step f1 hHl hk af (fun _ => hlim) (fun h => by omega) a ha
    obtain ⟨o', e', af1', post'⟩ := AfterMt.step f1 hHl' hk' af' (fun _ => hlim) (fun h => by omega) b hb
    have aux : ∀ {H : Bytes → Bytes} {k : Key} {body : Bytes}, (∀ x, (H x).length = p.n) → k.Valid p → AfterMt p H k n body →
        ∀ st sg s1, body = k.fast p n st sg → ExtShape p st sg →
        nextZero H p k.skSeed k.pubSeed n (st.map fun s => { s with leaves := 0 }) = some s1 → ∀ j < p.d,
        B p.tree_height (j + 1) ∣ n + 1 → ∀ s x, s1[p.d + j]? = some s → s.stack[0]? = some x →
        x = (suiteOf p H).treeRoot k.skSeed k.pubSeed j ((n + 1) / B p.tree_height (j + 1)) := by
      intro H k body hHl hk af st sg s1 hb sh h1 j hj hd s x hs hx
      rw [AfterMt, if_pos (by omega)] at af
      obtain ⟨st2, sg2, mi, e2⟩ := af
      obtain ⟨q1, rfl⟩ := fast_inj hk sh (mi.ext g hHl) (hb.symm.trans e2)
      rw [q1] at h1
      exact root_signed f1 hHl hn hlim (mi.with_leaves 0) h1 hj hd hs hx
    have r := fastXmssmtSignT_twin (c := Agree p H H' k k' n a.msg b.msg ∧ ∀ i < p.d, 2 ^ (p.tree_height * (i + 1)) ∣ n + 1 →
        chainSteps (suiteOf p H) ((suiteOf p H).treeRoot k.skSeed k.pubSeed i ((n + 1) / 2 ^ (p.tree_height * (i + 1)))) =
        chainSteps (suiteOf p H') ((suiteOf p H').treeRoot k'.skSeed k'.pubSeed i ((n + 1) / 2 ^ (p.tree_height * (i + 1)))))
      f1 hHl hHl' hk hk' (by omega) t a.sm b.sm a.smlen0 b.smlen0 _ _ ha hb (fun c => c.1.head)
      (fun c st st' sg sg' s1 s1' hb1 hb1' sh sh' h1 h1' => by
        intro j _ hj hm hlt s s' x x' hs hs' hx hx'
        rw [mask_dvd] at hm
        rw [aux hHl hk af st sg s1 hb1 sh h1 j (by omega) hm s x hs hx,
          aux hHl' hk' af' st' sg' s1' hb1' sh' h1' j (by omega) hm s' x' hs' hx']
        exact c.2 j (by omega) hm)
    obtain ⟨l, l', t1, t2, t3, t4⟩ := twin_defined r (by rw [fastXmssmtSignT_val]; exact e) (by rw [fastXmssmtSignT_val]; exact e')
    exact ⟨o, o', l, l', t1, t2, t3, af1, af1', ⟨post.ok, post.last, post.over, post.size⟩,
      ⟨post'.ok, post'.last, post'.over, post'.size⟩, fun h h' => t4 ⟨h, h'⟩⟩

/-- Two histories of the same length. -/
theorem histories (hp : f.parseFast oid = some p) (hH : coreHash P p.func p.n = some H) (hH' : coreHash P' p.func p.n = some H')
    (hHl : ∀ x, (H x).length = p.n) (hHl' : ∀ x, (H' x).length = p.n)
    {k k' : Key} (hk : k.Valid p) (hk' : k'.Valid p) : ∀ (cs cs' : List Call) (n : Nat) (body body' : Bytes),
    cs.length = cs'.length → n + cs.length < 2 ^ p.full_height →
    (n + cs.length < B p.tree_height (p.tree_height / 2 + 2) ∨ f = .xmss) →
    (∀ c ∈ cs, p.sig_bytes + c.msg.length ≤ c.sm.length) → (∀ c ∈ cs', p.sig_bytes + c.msg.length ≤ c.sm.length) →
    Twin p k k' n body body' → AfterF f p H k n body → AfterF f p H' k' n body' →
    ∃ rs rs', signAllFastT P f (Rfc.toByte oid 4 ++ body) cs = some rs ∧ signAllFastT P' f (Rfc.toByte oid 4 ++ body') cs' = some rs' ∧
      rs.length = cs.length ∧ rs'.length = cs'.length ∧
      ∀ (j : Nat) (a b : Call) (o o' : FastOut) (l l' : List Nat), cs[j]? = some a → cs'[j]? = some b → rs[j]? = some (o, l) →
        rs'[j]? = some (o', l') → PostFast p H k (n + j) a { o with sk := o.sk.drop 4 } ∧
          PostFast p H' k' (n + j) b { o' with sk := o'.sk.drop 4 } ∧
        (Agree p H H' k k' (n + j) a.msg b.msg → (∀ i < p.d, 2 ^ (p.tree_height * (i + 1)) ∣ n + j + 1 →
          chainSteps (suiteOf p H) ((suiteOf p H).treeRoot k.skSeed k.pubSeed i ((n + j + 1) / 2 ^ (p.tree_height * (i + 1)))) =
          chainSteps (suiteOf p H') ((suiteOf p H').treeRoot k'.skSeed k'.pubSeed i ((n + j + 1) / 2 ^ (p.tree_height * (i + 1))))) →
          l = l')
  | [], [], n, body, body', _, _, _, _, _, _, _, _ => ⟨[], [], rfl, rfl, rfl, rfl, by simp⟩
  | [], _ :: _, _, _, _, h, _, _, _, _, _, _, _ => by simp at h
  | _ :: _, [], _, _, _, h, _, _, _, _, _, _, _ => by simp at h
  | a :: cs, b :: cs', n, body, body', hl, hn, hlim, hs, hs', t, af, af' => by
    simp only [List.length_cons] at hl hn hlim
    obtain ⟨o, o', l, l', e1, e2, t1, af1, af1', p1, p2, hc⟩ := sign_twin hp hHl hHl' hk hk' (by omega) t
      (hlim.imp (fun h => by omega) id) af af' a b (hs a (by simp)) (hs' b (by simp))
    obtain ⟨rs, rs', r1, r2, r3, r4, r5⟩ := histories hp hH hH' hHl hHl' hk hk' cs cs' (n + 1) o.sk o'.sk (by omega) (by omega)
      (hlim.imp (fun h => by omega) id) (fun c hc => hs c (by simp [hc])) (fun c hc => hs' c (by simp [hc])) t1 af1 af1'
    have s1 : f.signFastT P (Rfc.toByte oid 4 ++ body) a.sm a.smlen0 a.msg = mk { o with sk := Rfc.toByte oid 4 ++ o.sk } l := by
      rw [signFastT_core hp hH, e1, bind_mk, pure_eq, tell_mk_nil]
    have s2 : f.signFastT P' (Rfc.toByte oid 4 ++ body') b.sm b.smlen0 b.msg = mk { o' with sk := Rfc.toByte oid 4 ++ o'.sk } l' := by
      rw [signFastT_core hp hH', e2, bind_mk, pure_eq, tell_mk_nil]
    refine ⟨({ o with sk := Rfc.toByte oid 4 ++ o.sk }, l) :: rs, ({ o' with sk := Rfc.toByte oid 4 ++ o'.sk }, l') :: rs', ?_, ?_,
      by simp [r3], by simp [r4], ?_⟩
    · rw [signAllFastT, s1]
      simp only [valueOf, callsOf, mk, Option.map_some, Option.bind_eq_bind, Option.bind_some, r1]
    · rw [signAllFastT, s2]
      simp only [valueOf, callsOf, mk, Option.map_some, Option.bind_eq_bind, Option.bind_some, r2]
    · intro j a' b' q q' m m' h1 h2 h3 h4
      cases j with
      | zero =>
        rw [List.getElem?_cons_zero, Option.some.injEq] at h1 h2 h3 h4
        subst h1 h2
        obtain ⟨rfl, rfl⟩ := Prod.mk.inj h3
        obtain ⟨rfl, rfl⟩ := Prod.mk.inj h4
        have d4 : ∀ x : Bytes, (Rfc.toByte oid 4 ++ x).drop 4 = x := fun x => List.drop_left' (toByte_length _ _)
        simp only [d4]
        exact ⟨p1, p2, hc⟩
      | succ j =>
        rw [List.getElem?_cons_succ] at h1 h2 h3 h4
        have := r5 j a' b' q q' m m' h1 h2 h3 h4
        rwa [show n + 1 + j = n + (j + 1) by omega] at this

/-- Two histories of the same length, without any assumption on the states. -/
theorem histories_any (hp : f.parseFast oid = some p) (hH : coreHash P p.func p.n = some H) (hH' : coreHash P' p.func p.n = some H')
    (hHl : ∀ x, (H x).length = p.n) (hHl' : ∀ x, (H' x).length = p.n)
    {k k' : Key} (hk : k.Valid p) (hk' : k'.Valid p) : ∀ (cs cs' : List Call) (n : Nat) (body body' : Bytes),
    cs.length = cs'.length → n + cs.length < 2 ^ p.full_height →
    (∀ c ∈ cs, p.sig_bytes + c.msg.length ≤ c.sm.length) → (∀ c ∈ cs', p.sig_bytes + c.msg.length ≤ c.sm.length) →
    Twin p k k' n body body' →
    (signAllFastT P f (Rfc.toByte oid 4 ++ body) cs = none ∧ signAllFastT P' f (Rfc.toByte oid 4 ++ body') cs' = none) ∨
    ∃ rs rs', signAllFastT P f (Rfc.toByte oid 4 ++ body) cs = some rs ∧ signAllFastT P' f (Rfc.toByte oid 4 ++ body') cs' = some rs' ∧
      rs.length = cs.length ∧ rs'.length = cs'.length ∧
      ∀ (j : Nat) (a b : Call) (o o' : FastOut) (l l' : List Nat), cs[j]? = some a → cs'[j]? = some b → rs[j]? = some (o, l) →
        rs'[j]? = some (o', l') → ¬ 2 ^ p.tree_height ∣ n + j + 1 → Agree p H H' k k' (n + j) a.msg b.msg → l = l'
  | [], [], n, body, body', _, _, _, _, _ => Or.inr ⟨[], [], rfl, rfl, rfl, rfl, by simp⟩
  | [], _ :: _, _, _, _, h, _, _, _, _ => by simp at h
  | _ :: _, [], _, _, _, h, _, _, _, _ => by simp at h
  | a :: cs, b :: cs', n, body, body', hl, hn, hs, hs', t => by
    simp only [List.length_cons] at hl hn
    rcases sign_twin_any hp hHl hHl' hk hk' (by omega) t a b (hs a (by simp)) (hs' b (by simp)) with
      ⟨e1, e2⟩ | ⟨o, l, o', l', e1, e2, t1, hc⟩
    · left
      have s1 : f.signFastT (κ := Nat) P (Rfc.toByte oid 4 ++ body) a.sm a.smlen0 a.msg = fail := by
        rw [signFastT_core hp hH, e1, bind_fail]
      have s2 : f.signFastT (κ := Nat) P' (Rfc.toByte oid 4 ++ body') b.sm b.smlen0 b.msg = fail := by
        rw [signFastT_core hp hH', e2, bind_fail]
      rw [signAllFastT, signAllFastT, s1, s2]
      exact ⟨rfl, rfl⟩
    have s1 : f.signFastT (κ := Nat) P (Rfc.toByte oid 4 ++ body) a.sm a.smlen0 a.msg = mk { o with sk := Rfc.toByte oid 4 ++ o.sk } l := by
      rw [signFastT_core hp hH, e1, bind_mk, pure_eq, tell_mk_nil]
    have s2 : f.signFastT (κ := Nat) P' (Rfc.toByte oid 4 ++ body') b.sm b.smlen0 b.msg = mk { o' with sk := Rfc.toByte oid 4 ++ o'.sk } l' := by
      rw [signFastT_core hp hH', e2, bind_mk, pure_eq, tell_mk_nil]
    rcases histories_any hp hH hH' hHl hHl' hk hk' cs cs' (n + 1) o.sk o'.sk (by omega) (by omega)
      (fun c hc => hs c (by simp [hc])) (fun c hc => hs' c (by simp [hc])) t1 with ⟨r1, r2⟩ | ⟨rs, rs', r1, r2, r3, r4, r5⟩
    · left
      constructor
      · rw [signAllFastT, s1]
        simp only [valueOf, callsOf, mk, Option.map_some, Option.bind_eq_bind, Option.bind_some, r1, Option.bind_none]
      · rw [signAllFastT, s2]
        simp only [valueOf, callsOf, mk, Option.map_some, Option.bind_eq_bind, Option.bind_some, r2, Option.bind_none]
    right
    refine ⟨({ o with sk := Rfc.toByte oid 4 ++ o.sk }, l) :: rs, ({ o' with sk := Rfc.toByte oid 4 ++ o'.sk }, l') :: rs', ?_, ?_,
      by simp [r3], by simp [r4], ?_⟩
    · rw [signAllFastT, s1]
      simp only [valueOf, callsOf, mk, Option.map_some, Option.bind_eq_bind, Option.bind_some, r1]
    · rw [signAllFastT, s2]
      simp only [valueOf, callsOf, mk, Option.map_some, Option.bind_eq_bind, Option.bind_some, r2]
    · intro j a' b' q q' m m' h1 h2 h3 h4
      cases j with
      | zero =>
        rw [List.getElem?_cons_zero, Option.some.injEq] at h1 h2 h3 h4
        subst h1 h2
        obtain ⟨rfl, rfl⟩ := Prod.mk.inj h3
        obtain ⟨rfl, rfl⟩ := Prod.mk.inj h4
        exact fun x y => hc ⟨y, x⟩
      | succ j =>
        rw [List.getElem?_cons_succ] at h1 h2 h3 h4
        have := r5 j a' b' q q' m m' h1 h2 h3 h4
        rwa [show n + 1 + j = n + (j + 1) by omega] at this

/-- The key that key generation gives. -/
theorem keygen_one (hp : f.parseFast oid = some p) (hH : coreHash P p.func p.n = some H) (hHl : ∀ x, (H x).length = p.n) (pk0 sk0 : Bytes)
    (hpk : pk0.length = 4 + p.pk_bytes) (hsk : sk0.length = 4 + p.sk_bytes) (seed : Nat → Bytes) (hs : (seed p.n).length = 3 * p.n) :
    ∃ (k : Key) (st : List BdsState) (sg : List Bytes), k.Valid p ∧ k.Honest (suiteOf p H) ∧
      seed p.n = k.skSeed ++ k.skPrf ++ k.pubSeed ∧
      f.keypairFast P pk0 sk0 oid seed = some (0, k.pk oid, Rfc.toByte oid 4 ++ k.fast p 0 st sg) ∧
      ExtShape p st sg ∧ AfterF f p H k 0 (k.fast p 0 st sg) ∧
      ∀ (i : Nat) (s : BdsState), st[i]? = some s → s.stackoffset = 0 ∧ s.nextLeaf = 0 ∧ (i < p.d → FreshSt p s) := by
  obtain ⟨g, hskb, ho, _, _, _⟩ := parseFast_good hp
  have hpos : 0 < 2 ^ p.full_height := Nat.two_pow_pos _
  have hsd := split3 (seed p.n) p.n p.n
  set a := (seed p.n).take p.n with ha
  set b := ((seed p.n).drop p.n).take p.n with hb
  set c := (seed p.n).drop (p.n + p.n) with hc
  have la : a.length = p.n := by rw [ha, List.length_take]; omega
  have lb : b.length = p.n := by rw [hb, List.length_take, List.length_drop]; omega
  have lc : c.length = p.n := by rw [hc, List.length_drop]; omega
  have hroot : ((suiteOf p H).root a c).length = p.n := node_length g hHl _ _ _ _ _ _
  have hv : (Key.mk a b ((suiteOf p H).root a c) c).Valid p := ⟨la, lb, hroot, lc⟩
  cases f with
  | xmss =>
    have f1 := parseFast_fast1 hp
    obtain ⟨s, fr, rdy, e⟩ := fastXmssKeypairT_eq f1 hHl (pk0.drop 4) (sk0.drop 4) a b c
      (by rw [List.length_drop, hpk, g.pk_eq]; omega) (by rw [List.length_drop, hsk]; omega) la lb lc
    have e' := congrArg val e
    rw [fastXmssKeypairT_val] at e'
    refine ⟨⟨a, b, (suiteOf p H).root a c, c⟩, [s], [], hv, rfl, hsd, ?_, f1.extShape fr.shape, ?_, ?_⟩
    · exact apiKeypairFast_eq (parse := parseXmssFast) (core := fastXmssKeypair) (pk := pk0) (sk := sk0) (seed := seed) hp hH (by omega) (by omega) (by rw [hsd]; exact e')
    · show After1 p H _ 0 _
      rw [After1, if_pos hpos]
      exact ⟨s, rdy, rfl⟩
    · intro i t ht
      obtain rfl : t = s := by
        cases i with
        | zero => simpa using ht.symm
        | succ i => simp at ht
      exact ⟨fr.off, fr.next, fun _ => fr⟩
  | xmssmt =>
    have f1 := parseFast_mt hp
    obtain ⟨st0, _, st, sg, _, mi, h1, h2, sh, e⟩ := fastXmssmtKeypairT_eq f1 hHl (pk0.drop 4) (sk0.drop 4) a b c
      (by rw [List.length_drop, hpk, g.pk_eq]; omega) (by rw [List.length_drop, hsk]; omega) la lb lc
    have e' := congrArg val e
    rw [fastXmssmtKeypairT_val] at e'
    refine ⟨⟨a, b, (suiteOf p H).root a c, c⟩, st, sg, hv, rfl, hsd, ?_, sh, ?_, ?_⟩
    · exact apiKeypairFast_eq (parse := parseXmssmtFast) (core := fastXmssmtKeypair) (pk := pk0) (sk := sk0) (seed := seed) hp hH (by omega) (by omega) (by rw [hsd]; exact e')
    · show AfterMt p H _ 0 _
      rw [AfterMt, if_pos hpos]
      exact ⟨st, sg, mi _ (fun _ _ h => by cases h), rfl⟩
    · intro i t ht
      rcases Nat.lt_or_ge i p.d with hi | hi
      · obtain ⟨u, hu, fr⟩ := h2 i hi
        rw [ht, Option.some.injEq] at hu
        subst hu
        exact ⟨fr.off, fr.next, fun _ => fr⟩
      · rw [h1 i hi] at ht
        obtain ⟨u, _, rfl⟩ := Option.map_eq_some_iff.mp ht
        exact ⟨rfl, rfl, fun h => by omega⟩

/-- Key generation gives keys that are alike. -/
theorem keygen_twin (hp : f.parseFast oid = some p) (hH : coreHash P p.func p.n = some H) (hH' : coreHash P' p.func p.n = some H')
    (hHl : ∀ x, (H x).length = p.n) (hHl' : ∀ x, (H' x).length = p.n) (pk0 sk0 pk0' sk0' : Bytes)
    (hpk : pk0.length = 4 + p.pk_bytes) (hsk : sk0.length = 4 + p.sk_bytes) (hpk' : pk0'.length = 4 + p.pk_bytes)
    (hsk' : sk0'.length = 4 + p.sk_bytes) (seed seed' : Nat → Bytes) (hs : (seed p.n).length = 3 * p.n) (hs' : (seed' p.n).length = 3 * p.n) :
    ∃ (k k' : Key) (body body' : Bytes), k.Valid p ∧ k'.Valid p ∧ k.Honest (suiteOf p H) ∧ k'.Honest (suiteOf p H') ∧
      seed p.n = k.skSeed ++ k.skPrf ++ k.pubSeed ∧ seed' p.n = k'.skSeed ++ k'.skPrf ++ k'.pubSeed ∧
      f.keypairFast P pk0 sk0 oid seed = some (0, k.pk oid, Rfc.toByte oid 4 ++ body) ∧
      f.keypairFast P' pk0' sk0' oid seed' = some (0, k'.pk oid, Rfc.toByte oid 4 ++ body') ∧
      Twin p k k' 0 body body' ∧ AfterF f p H k 0 body ∧ AfterF f p H' k' 0 body' := by
  obtain ⟨k, st, sg, v, h, sd, e, sh, af, fr⟩ := keygen_one hp hH hHl pk0 sk0 hpk hsk seed hs
  obtain ⟨k', st', sg', v', h', sd', e', sh', af', fr'⟩ := keygen_one hp hH' hHl' pk0' sk0' hpk' hsk' seed' hs'
  refine ⟨k, k', _, _, v, v', h, h', sd, sd', e, e', ⟨st, st', sg, sg', rfl, rfl, sh, sh', ?_⟩, af, af'⟩
  refine ⟨by rw [sh.states_len, sh'.states_len], fun i s s' hi hi' => ?_⟩
  obtain ⟨o, n, q⟩ := fr i s hi
  obtain ⟨o', n', q'⟩ := fr' i s' hi'
  exact FreshSt.rel (sh.states_mem s (List.mem_of_getElem? hi)) (sh'.states_mem s' (List.mem_of_getElem? hi')) o o' n n'
    fun x => ⟨q x, q' x⟩

end HashCalls
open HashCalls

/-- **C75 (no secret in the calls).**  Two key pairs of the same parameter set, generated from any seeds, with any hash functions, into
any buffers; two histories of the same length.  When call number `j` of the two signs messages of the same length whose digests, which
anybody can compute from the signature and the public key, take the same number of chain steps, and, where a tree ends with `j`, the
roots of the next trees, which everybody learns from the next signature, do so too, then both make exactly the same sequence of hash
calls.  In particular nothing in the traversal (which nodes are computed when) depends on the keys, the seeds or the messages.
(40/8 and 60/12: the first `2^20 - 1` calls; see C75_window for the rest; the last call is in C75_end.) -/
theorem C75_same_calls (hp : f.parseFast oid = some p) (hH : coreHash P p.func p.n = some H) (hH' : coreHash P' p.func p.n = some H')
    (pk0 sk0 pk0' sk0' : Bytes)
    (hpk : pk0.length = 4 + p.pk_bytes) (hsk : sk0.length = 4 + p.sk_bytes) (hpk' : pk0'.length = 4 + p.pk_bytes)
    (hsk' : sk0'.length = 4 + p.sk_bytes) (seed seed' : Nat → Bytes) (hs : (seed p.n).length = 3 * p.n) (hs' : (seed' p.n).length = 3 * p.n) :
    ∃ (k k' : Key) (sk sk' : Bytes), seed p.n = k.skSeed ++ k.skPrf ++ k.pubSeed ∧ seed' p.n = k'.skSeed ++ k'.skPrf ++ k'.pubSeed ∧
      f.keypairFast P pk0 sk0 oid seed = some (0, k.pk oid, sk) ∧ f.keypairFast P' pk0' sk0' oid seed' = some (0, k'.pk oid, sk') ∧
      ∀ cs cs' : List Call, (∀ c ∈ cs, p.sig_bytes + c.msg.length ≤ c.sm.length) → (∀ c ∈ cs', p.sig_bytes + c.msg.length ≤ c.sm.length) →
        cs.length = cs'.length → cs.length < 2 ^ p.full_height → FastCovered p cs →
        ∃ rs rs', signAllFastT P f sk cs = some rs ∧ signAllFastT P' f sk' cs' = some rs' ∧ rs.length = cs.length ∧ rs'.length = cs'.length ∧
          ∀ (j : Nat) (c c' : Call) (o o' : FastOut) (l l' : List Nat), cs[j]? = some c → cs'[j]? = some c' → rs[j]? = some (o, l) →
            rs'[j]? = some (o', l') → c.msg.length = c'.msg.length →
            chainSteps (suiteOf p H) ((suiteOf p H).digest ((o.sm.drop p.index_bytes).take p.n) k.root j c.msg) =
              chainSteps (suiteOf p H') ((suiteOf p H').digest ((o'.sm.drop p.index_bytes).take p.n) k'.root j c'.msg) →
            (∀ i < p.d, 2 ^ (p.tree_height * (i + 1)) ∣ j + 1 →
              chainSteps (suiteOf p H) ((suiteOf p H).treeRoot k.skSeed k.pubSeed i ((j + 1) / 2 ^ (p.tree_height * (i + 1)))) =
              chainSteps (suiteOf p H') ((suiteOf p H').treeRoot k'.skSeed k'.pubSeed i ((j + 1) / 2 ^ (p.tree_height * (i + 1))))) →
            l = l' := by
  obtain ⟨g, _, _, _, hx, _⟩ := parseFast_good hp
  obtain ⟨_, h1, hHl⟩ := Family.hashFast (P := P) hp
  obtain ⟨_, h2, hHl'⟩ := Family.hashFast (P := P') hp
  rw [hH] at h1
  rw [hH'] at h2
  obtain rfl := Option.some.inj h1
  obtain rfl := Option.some.inj h2
  obtain ⟨k, k', body, body', v, v', _, _, sd, sd', e, e', t, af, af'⟩ :=
    keygen_twin hp hH hH' hHl hHl' pk0 sk0 pk0' sk0' hpk hsk hpk' hsk' seed seed' hs hs'
  refine ⟨k, k', _, _, sd, sd', e, e', ?_⟩
  intro cs cs' hcs hcs' hl hlt hcov
  have hlim : 0 + cs.length < B p.tree_height (p.tree_height / 2 + 2) ∨ f = .xmss := by
    rw [Nat.zero_add]
    cases f with
    | xmss => exact Or.inr rfl
    | xmssmt =>
      left
      rcases hcov.2 with h | h
      · have : 2 ^ p.full_height ≤ B p.tree_height (p.tree_height / 2 + 2) := by
          rw [← g.height]; exact Nat.pow_le_pow_right (by omega) (Nat.mul_le_mul_left _ h)
        omega
      · exact h
  obtain ⟨rs, rs', r1, r2, r3, r4, r5⟩ := histories hp hH hH' hHl hHl' v v' cs cs' 0 body body' hl (by omega) hlim hcs hcs' t af af'
  refine ⟨rs, rs', r1, r2, r3, r4, ?_⟩
  intro j c c' o o' l l' hc hc' ho ho' hm hd hroots
  obtain ⟨p1, p2, h⟩ := r5 j c c' o o' l l' hc hc' ho ho'
  rw [Nat.zero_add] at p1 p2 h
  have hj : j < cs.length := (List.getElem?_eq_some_iff.mp hc).1
  have q1 := (p1.ok (by omega)).2.2.1
  have q2 := (p2.ok (by omega)).2.2.1
  have er : ∀ {H : Bytes → Bytes} {k : Key} {m rest sm : Bytes}, (∀ x, (H x).length = p.n) →
      sm = (suiteOf p H).sign k.skSeed k.skPrf k.root k.pubSeed j m ++ m ++ rest →
      (sm.drop p.index_bytes).take p.n = (suiteOf p H).PRF k.skPrf (Rfc.toByte j 32) := by
    intro H k m rest sm hHl hsm
    have hR : ((suiteOf p H).PRF k.skPrf (Rfc.toByte j 32)).length = p.n := hHl _
    rw [hsm, Rfc.Suite.sign]
    simp only [List.append_assoc]
    rw [List.drop_left' (show (Rfc.toByte j (suiteOf p H).idxLen).length = p.index_bytes from toByte_length _ _), List.take_left' hR]
  refine h ⟨hm, ?_⟩ hroots
  have e1 : (o.sm.drop p.index_bytes).take p.n = _ := er hHl q1
  have e2 : (o'.sm.drop p.index_bytes).take p.n = _ := er hHl' q2
  rw [e1, e2] at hd
  exact hd

/-- **C75 (inside the trees, all parameter sets).**  For every history of fewer than `2^h` calls, also beyond the ones above: whether
it is defined does not depend on keys, hash functions or messages; and a call in the middle of a tree makes the same hash calls in both,
when the messages have the same length and their digests take the same number of chain steps. -/
theorem C75_inner (hp : f.parseFast oid = some p) (hH : coreHash P p.func p.n = some H) (hH' : coreHash P' p.func p.n = some H')
    (pk0 sk0 pk0' sk0' : Bytes)
    (hpk : pk0.length = 4 + p.pk_bytes) (hsk : sk0.length = 4 + p.sk_bytes) (hpk' : pk0'.length = 4 + p.pk_bytes)
    (hsk' : sk0'.length = 4 + p.sk_bytes) (seed seed' : Nat → Bytes) (hs : (seed p.n).length = 3 * p.n) (hs' : (seed' p.n).length = 3 * p.n) :
    ∃ (k k' : Key) (sk sk' : Bytes), seed p.n = k.skSeed ++ k.skPrf ++ k.pubSeed ∧ seed' p.n = k'.skSeed ++ k'.skPrf ++ k'.pubSeed ∧
      f.keypairFast P pk0 sk0 oid seed = some (0, k.pk oid, sk) ∧ f.keypairFast P' pk0' sk0' oid seed' = some (0, k'.pk oid, sk') ∧
      ∀ cs cs' : List Call, (∀ c ∈ cs, p.sig_bytes + c.msg.length ≤ c.sm.length) → (∀ c ∈ cs', p.sig_bytes + c.msg.length ≤ c.sm.length) →
        cs.length = cs'.length → cs.length < 2 ^ p.full_height →
        (signAllFast P f sk cs = none ↔ signAllFast P' f sk' cs' = none) ∧
        ∀ rs rs', signAllFastT P f sk cs = some rs → signAllFastT P' f sk' cs' = some rs' →
          ∀ (j : Nat) (c c' : Call) (o o' : FastOut) (l l' : List Nat), cs[j]? = some c → cs'[j]? = some c' → rs[j]? = some (o, l) →
            rs'[j]? = some (o', l') → ¬ 2 ^ p.tree_height ∣ j + 1 → c.msg.length = c'.msg.length →
            chainSteps (suiteOf p H) ((suiteOf p H).digest ((suiteOf p H).PRF k.skPrf (Rfc.toByte j 32)) k.root j c.msg) =
              chainSteps (suiteOf p H') ((suiteOf p H').digest ((suiteOf p H').PRF k'.skPrf (Rfc.toByte j 32)) k'.root j c'.msg) →
            l = l' := by
  obtain ⟨_, h1, hHl⟩ := Family.hashFast (P := P) hp
  obtain ⟨_, h2, hHl'⟩ := Family.hashFast (P := P') hp
  rw [hH] at h1
  rw [hH'] at h2
  obtain rfl := Option.some.inj h1
  obtain rfl := Option.some.inj h2
  obtain ⟨k, k', body, body', v, v', _, _, sd, sd', e, e', t, af, af'⟩ :=
    keygen_twin hp hH hH' hHl hHl' pk0 sk0 pk0' sk0' hpk hsk hpk' hsk' seed seed' hs hs'
  refine ⟨k, k', _, _, sd, sd', e, e', ?_⟩
  intro cs cs' hcs hcs' hl hlt
  have key := histories_any hp hH hH' hHl hHl' v v' cs cs' 0 body body' hl (by omega) hcs hcs' t
  constructor
  · rw [← C74_same_history, ← C74_same_history]
    rcases key with ⟨r1, r2⟩ | ⟨rs, rs', r1, r2, _⟩ <;> simp [r1, r2]
  · intro rs rs' q1 q2 j c c' o o' l l' hc hc' ho ho' hj hm hd
    rcases key with ⟨r1, r2⟩ | ⟨rs1, rs1', r1, r2, _, _, h⟩
    · rw [r1] at q1; cases q1
    · rw [r1, Option.some.injEq] at q1
      rw [r2, Option.some.injEq] at q2
      subst q1 q2
      have := h j c c' o o' l l' hc hc' ho ho'
      rw [Nat.zero_add] at this
      exact this hj ⟨hm, hd⟩

/-- Non-vacuity of C75: XMSS-SHA2_10_256 with the worthless hash function `lastBytes`.  Whatever the two seeds, two signers that sign
the same messages (of 32 bytes) make the same hash calls, throughout. -/
theorem C75_example (pk0 sk0 pk0' sk0' : Bytes) (hpk : pk0.length = 68) (hsk : sk0.length = 1377) (hpk' : pk0'.length = 68)
    (hsk' : sk0'.length = 1377) (seed seed' : Nat → Bytes) (hs : (seed 32).length = 96) (hs' : (seed' 32).length = 96) :
    ∃ pk sk pk' sk', Family.xmss.keypairFast Reuse.lastPrims pk0 sk0 1 seed = some (0, pk, sk) ∧
      Family.xmss.keypairFast Reuse.lastPrims pk0' sk0' 1 seed' = some (0, pk', sk') ∧
      ∀ cs : List Call, cs.length < 1024 → (∀ c ∈ cs, c.msg.length = 32 ∧ 2500 + c.msg.length ≤ c.sm.length) →
        ∃ rs rs', signAllFastT Reuse.lastPrims .xmss sk cs = some rs ∧ signAllFastT Reuse.lastPrims .xmss sk' cs = some rs' ∧
          rs.length = cs.length ∧ rs.map Prod.snd = rs'.map Prod.snd := by
  have hp : Family.xmss.parseFast 1 = some { Reuse.q with sk_bytes := 1373 } := by decide +kernel
  have hH : coreHash Reuse.lastPrims ({ Reuse.q with sk_bytes := 1373 } : Params).func ({ Reuse.q with sk_bytes := 1373 } : Params).n =
    some Reuse.lastBytes := rfl
  obtain ⟨k, k', sk, sk', _, _, e, e', h⟩ := C75_same_calls hp hH hH pk0 sk0 pk0' sk0' hpk hsk hpk' hsk' seed seed' hs hs'
  refine ⟨_, sk, _, sk', e, e', ?_⟩
  intro cs hl hcs
  obtain ⟨rs, rs', r1, r2, r3, r4, r5⟩ := h cs cs (fun c hc => (hcs c hc).2) (fun c hc => (hcs c hc).2) rfl hl
    ⟨fun h => absurd h (by decide), Or.inl (by decide)⟩
  refine ⟨rs, rs', r1, r2, r3, ?_⟩
  apply List.ext_getElem? 
  intro j
  rw [List.getElem?_map, List.getElem?_map]
  rcases Nat.lt_or_ge j cs.length with hj | hj
  · have hc := List.getElem?_eq_getElem hj
    have h1 := List.getElem?_eq_getElem (l := rs) (i := j) (by omega)
    have h2 := List.getElem?_eq_getElem (l := rs') (i := j) (by omega)
    rw [h1, h2, Option.map_some, Option.map_some, Option.some.injEq]
    refine r5 j _ _ _ _ _ _ hc hc h1 h2 rfl ?_ ?_
    · have hm := (hcs _ (List.getElem_mem hj)).1
      simp only [Rfc.Suite.digest, Rfc.Suite.Hmsg, suiteOf]
      rw [Reuse.lastBytes_append _ _ hm, Reuse.lastBytes_append _ _ hm]
    · intro i hi hd
      exfalso
      have hi0 : i = 0 := by
        have : ({ Reuse.q with sk_bytes := 1373 } : Params).d = 1 := by decide
        omega
      subst hi0
      have := Nat.le_of_dvd (by omega) hd
      have ht : 2 ^ (({ Reuse.q with sk_bytes := 1373 } : Params).tree_height * (0 + 1)) = 1024 := by decide
      omega
  · rw [List.getElem?_eq_none (by omega), List.getElem?_eq_none (by omega)]

end Xmss
