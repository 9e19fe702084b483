import Verif.Proof.TraceCost
import Verif.Proof.TraceKeygen
import Verif.Props.FastDamaged
/-
C74: which calls of the hash function the fast implementation makes, and how many.
-/
namespace Xmss
open Tr Sched HashCalls

variable {P : Prims} {f : Family} {oid : Nat} {p : Params} {H : Bytes → Bytes}

namespace Family
/-- keypair of the fast implementation with the record of its calls of the hash function -/
def keypairFastT {κ : Type} [Rec κ] (P : Prims) : Family → Bytes → Bytes → Nat → (Nat → Bytes) → TrG κ (Int × Bytes × Bytes)
  | xmss => apiKeypairFastT P parseXmssFast fastXmssKeypairT
  | xmssmt => apiKeypairFastT P parseXmssmtFast fastXmssmtKeypairT
/-- sign of the fast implementation with the record of its calls of the hash function -/
def signFastT {κ : Type} [Rec κ] (P : Prims) : Family → Bytes → Bytes → Nat → Bytes → TrG κ FastOut
  | xmss => apiSignFastT P parseXmssFast fastXmssSignT
  | xmssmt => apiSignFastT P parseXmssmtFast fastXmssmtSignT
end Family

/-- A history of the fast implementation, as `signAllFast`, where every call also gives the record of its hash calls. -/
def signAllFastT (P : Prims) (f : Family) : Bytes → List Call → Option (List (FastOut × List Nat))
  | _, [] => some []
  | sk, c :: cs => do
    let o ← valueOf (f.signFastT P sk c.sm c.smlen0 c.msg)
    let l ← callsOf (f.signFastT P sk c.sm c.smlen0 c.msg)
    let os ← signAllFastT P f o.sk cs
    some ((o, l) :: os)

/-- **C74 (the recorded functions are the functions).**  For all arguments, also where the behaviour is undefined. -/
theorem C74_same (P : Prims) (f : Family) :
    (∀ pk sk oid seed, valueOf (f.keypairFastT P pk sk oid seed) = f.keypairFast P pk sk oid seed) ∧
    (∀ sk sm l0 m, valueOf (f.signFastT P sk sm l0 m) = f.signFast P sk sm l0 m) := by
  cases f with
  | xmss =>
    refine ⟨fun pk sk oid seed => ?_, fun sk sm l0 m => ?_⟩
    · rw [Family.keypairFast, xmssKeypairFast, Family.keypairFastT]
      exact apiKeypairFastT_val P parseXmssFast (fun _ _ _ _ _ => fastXmssKeypairT_val _ _ _) pk sk oid seed
    · rw [Family.signFast, xmssSignFast, Family.signFastT]
      exact apiSignFastT_val P parseXmssFast (fun _ _ _ _ _ _ => fastXmssSignT_val _ _ _ _) sk sm l0 m
  | xmssmt =>
    refine ⟨fun pk sk oid seed => ?_, fun sk sm l0 m => ?_⟩
    · rw [Family.keypairFast, xmssmtKeypairFast, Family.keypairFastT]
      exact apiKeypairFastT_val P parseXmssmtFast (fun _ _ _ _ _ => fastXmssmtKeypairT_val _ _ _) pk sk oid seed
    · rw [Family.signFast, xmssmtSignFast, Family.signFastT]
      exact apiSignFastT_val P parseXmssmtFast (fun _ _ _ _ _ _ => fastXmssmtSignT_val _ _ _ _) sk sm l0 m

/-- The same for histories. -/
theorem C74_same_history (P : Prims) (f : Family) : ∀ (sk : Bytes) (cs : List Call),
    (signAllFastT P f sk cs).map (List.map Prod.fst) = signAllFast P f sk cs
  | _, [] => rfl
  | sk, c :: cs => by
    have h := (C74_same P f).2 sk c.sm c.smlen0 c.msg
    rw [signAllFastT, signAllFast, ← h]
    cases ht : f.signFastT (κ := Nat) P sk c.sm c.smlen0 c.msg with
    | none => rfl
    | some r =>
      obtain ⟨o, l⟩ := r
      have ih := C74_same_history P f o.sk cs
      simp only [valueOf, callsOf, Option.map_some, Option.bind_eq_bind, Option.bind_some]
      rw [← ih]
      cases signAllFastT P f o.sk cs <;> rfl

/-! ### Lemmas -/

namespace HashCalls

theorem mk_inj {α : Type} {a b : α} {l l' : List Nat} (h : mk a l = mk b l') : a = b ∧ l = l' := by
  have := Option.some.inj h
  exact ⟨congrArg Prod.fst this, congrArg Prod.snd this⟩

theorem layerCalls_eq (g : p.Good) (skSeed pubSeed : Bytes) : ∀ k i, layerCalls H p skSeed pubSeed k i =
    ((List.range' i k).map fun i => Calls.tree p p.tree_height ++
      Calls.wots p (suiteOf p H) ((suiteOf p H).treeRoot skSeed pubSeed i 0)).flatten
  | 0, i => rfl
  | k + 1, i => by
    rw [layerCalls, layerCalls_eq g skSeed pubSeed k (i + 1), List.range'_succ, List.map_cons, List.flatten_cons,
      Rfc.Suite.treeRoot, g.hp_eq]
    rfl

theorem apiSignFastT_eq {parse : Nat → Option Params}
    {core : (Bytes → Bytes) → Params → Bytes → Bytes → Nat → Bytes → Tr FastOut} (hp : parse oid = some p)
    (ho : oid < 2 ^ 8) (hH : coreHash P p.func p.n = some H) (body sm m : Bytes) (l0 : Nat) :
    apiSignFastT P parse core (Rfc.toByte oid 4 ++ body) sm l0 m =
      core H p body sm l0 m >>= fun o => pure { o with sk := Rfc.toByte oid 4 ++ o.sk } := by
  have t1 : ∀ x : Bytes, (Rfc.toByte oid 4 ++ x).drop oidLen = x := fun x => List.drop_left' (toByte_length _ _)
  have t2 : ∀ x : Bytes, (Rfc.toByte oid 4 ++ x).take oidLen = Rfc.toByte oid 4 := fun x =>
    List.take_left' (toByte_length _ _)
  rw [apiSignFastT, readOid_toByte (by omega)]
  trsimp
  simp only [hp, hH, t1, t2]
  trsimp

theorem apiKeypairFastT_eq {parse : Nat → Option Params}
    {core : (Bytes → Bytes) → Params → Bytes → Bytes → Bytes → Tr (Bytes × Bytes)} (hp : parse oid = some p)
    (hH : coreHash P p.func p.n = some H) {pk sk : Bytes} {seed : Nat → Bytes} 
    (hpk : 4 ≤ pk.length) (hsk : 4 ≤ sk.length) :
    apiKeypairFastT P parse core pk sk oid seed =
      core H p (pk.drop 4) (sk.drop 4) (seed p.n) >>= fun r => pure (0, Rfc.toByte oid 4 ++ r.1, Rfc.toByte oid 4 ++ r.2) := by
  have t1 : ∀ x : Bytes, (Rfc.toByte oid 4 ++ x).drop oidLen = x := fun x => List.drop_left' (toByte_length _ _)
  have t2 : ∀ x : Bytes, (Rfc.toByte oid 4 ++ x).take oidLen = Rfc.toByte oid 4 := fun x =>
    List.take_left' (toByte_length _ _)
  have w : ∀ b : Bytes, 4 ≤ b.length → wr b 0 (Rfc.toByte oid 4) = some (Rfc.toByte oid 4 ++ b.drop 4) := by
    intro b hb
    rw [wr_mid (buf := b) (off := 0) (y := b.take 4) [] (b.drop 4) (by simp) rfl (by rw [toByte_length]; simp; omega)]
    rfl
  rw [apiKeypairFastT]
  simp only [hp, oidBytes_eq, w pk hpk, w sk hsk, hH]
  trsimp
  simp only [t1, t2]

/-- The calls of one sign call of the fast implementation with one tree, on any key. -/
theorem fastXmssSignT_cost (f : Fast1 p) (hH : ∀ x, (H x).length = p.n) {k : Key} (hk : k.Valid p) {idx : Nat}
    (hidx : idx < 256 ^ p.index_bytes) {st : List BdsState} {sg : List Bytes} (sh : ExtShape p st sg) (sm : Bytes) (l0 : Nat) (m : Bytes)
    (hsm : p.sig_bytes + m.length ≤ sm.length) {o : FastOut} {l : List Nat} (h : fastXmssSignT H p (k.fast p idx st sg) sm l0 m = mk o l) :
    o.leaves * leafCount p ≤ l.length ∧ o.leaves ≤ p.insts / 2 + 1 ∧
      l.length ≤ 2 + wotsMax p + o.leaves * (leafCount p + 4) + 4 * (p.tree_height + 1) + 4 ∧
      (2 ^ p.full_height ≤ idx → l = []) ∧ (idx < 2 ^ p.full_height → 2 + p.wots_len ≤ l.length) := by
  have g := f.good
  obtain ⟨s, rfl, rfl, shs⟩ := sh.one f.d
  have hw : ∀ k' : Key, (headCalls p H k' idx m).length ≤ 2 + wotsMax p ∧ 2 + p.wots_len ≤ (headCalls p H k' idx m).length := by
    intro k'
    have := wotsCalls_le (H := H) g ((suiteOf p H).digest ((suiteOf p H).PRF k'.skPrf (Rfc.toByte idx 32)) k'.root idx m)
    refine ⟨?_, ?_⟩
    · simp only [headCalls, List.length_append, Calls.prf, Calls.msg, List.length_cons, List.length_nil]
      omega
    · simp only [headCalls, wotsCalls, List.length_append, Calls.prf, Calls.msg, List.length_cons, List.length_nil, rep_length, Calls.gen]
      omega
  have hpos : 0 < 2 ^ p.full_height := Nat.two_pow_pos _
  rcases Nat.lt_trichotomy idx (2 ^ p.full_height - 1) with hi | hi | hi
  · obtain ⟨a, F, e, hF⟩ := fastXmssSignT_lt f hH hk hi shs sm l0 m hsm
    rw [e] at h
    cases ht : (xmssTraverseT H p k.skSeed k.pubSeed idx { s with leaves := 0 } a) with
    | none =>
      rw [ht] at h; exact absurd h (by intro h; cases h)
    | some r =>
      obtain ⟨s', l1⟩ := r
      have ht' : xmssTraverseT H p k.skSeed k.pubSeed idx { s with leaves := 0 } a = mk s' l1 := ht
      rw [ht', bind_mk, pure_eq, tell_mk_nil, tell_mk] at h
      obtain ⟨rfl, rfl⟩ := mk_inj h
      obtain ⟨⟨_, n, c1, c2, c3⟩, c4⟩ := xmssTraverseT_cost ht'
      have e1 := (hF s').2.1
      have hph : phi { s with leaves := 0 } ≤ p.tree_height + 1 := by
        unfold phi
        have := shs.stack_len
        simp only
        split <;> omega
      have := hw k
      simp only at c1 c4
      rw [e1, List.length_append, c1, Nat.zero_add]
      rw [c1] at c4
      exact ⟨by omega, by omega, by omega, fun h => by omega, fun _ => by omega⟩
  · subst hi
    obtain ⟨o', e, h1, h2⟩ := fastXmssSignT_last (H := H) f hH hk shs sm l0 m hsm
    rw [e] at h
    obtain ⟨rfl, rfl⟩ := mk_inj h
    have := hw (Key.zero p)
    rw [h2]
    exact ⟨by omega, by omega, by omega, fun h => by omega, fun _ => by omega⟩
  · rw [Key.fast, skHead_mat, List.append_assoc] at h
    obtain ⟨o', e, h1, h2⟩ := fastXmssSignT_over (H := H) f (toByte_length idx p.index_bytes) (body := k.mat ++ extBytes [s] [])
      (by rw [List.length_append, Key.mat_length hk, ext1_length shs, f.sk, fastSkBytes, f.d]; omega)
      (by rw [toNat_toByte, Nat.mod_eq_of_lt hidx]; omega) sm l0 m
    rw [e] at h
    obtain ⟨rfl, rfl⟩ := mk_inj h
    rw [h2]
    exact ⟨by simp, by omega, by simp, fun _ => rfl, fun h => by omega⟩

/-- The same with several layers. -/
theorem fastXmssmtSignT_cost (f : FastMt p) (hH : ∀ x, (H x).length = p.n) {k : Key} (hk : k.Valid p) {idx : Nat}
    (hidx : idx < 256 ^ p.index_bytes) {st : List BdsState} {sg : List Bytes} (sh : ExtShape p st sg) (sm : Bytes) (l0 : Nat) (m : Bytes)
    (hsm : p.sig_bytes + m.length ≤ sm.length) {o : FastOut} {l : List Nat} (h : fastXmssmtSignT H p (k.fast p idx st sg) sm l0 m = mk o l) :
    o.leaves * leafCount p ≤ l.length ∧
      l.length ≤ 2 + wotsMax p + o.leaves * (leafCount p + 4) + 4 * ((2 * p.d - 1) * (p.tree_height + 1)) + p.d * (wotsMax p + 4) ∧
      (2 ^ p.full_height ≤ idx → l = []) ∧ (idx < 2 ^ p.full_height → 2 + p.wots_len ≤ l.length) := by
  have g := f.good
  have hw : ∀ k' : Key, (headCalls p H k' idx m).length ≤ 2 + wotsMax p ∧ 2 + p.wots_len ≤ (headCalls p H k' idx m).length := by
    intro k'
    have := wotsCalls_le (H := H) g ((suiteOf p H).digest ((suiteOf p H).PRF k'.skPrf (Rfc.toByte idx 32)) k'.root idx m)
    refine ⟨?_, ?_⟩
    · simp only [headCalls, List.length_append, Calls.prf, Calls.msg, List.length_cons, List.length_nil]
      omega
    · simp only [headCalls, wotsCalls, List.length_append, Calls.prf, Calls.msg, List.length_cons, List.length_nil, rep_length, Calls.gen]
      omega
  have hpos : 0 < 2 ^ p.full_height := Nat.two_pow_pos _
  rcases Nat.lt_trichotomy idx (2 ^ p.full_height - 1) with hi | hi | hi
  · obtain ⟨a, F, ha, e, hF⟩ := fastXmssmtSignT_lt f hH hk hi sh sm l0 m hsm
    rw [e] at h
    cases ht : (mtTraverseT H p k.skSeed k.pubSeed idx (st.map fun s => { s with leaves := 0 }) sg a) with
    | none =>
      rw [ht] at h; exact absurd h (by intro h; cases h)
    | some r =>
      obtain ⟨v, l1⟩ := r
      have ht' : mtTraverseT H p k.skSeed k.pubSeed idx (st.map fun s => { s with leaves := 0 }) sg a = mk v l1 := ht
      rw [ht', bind_mk, pure_eq, tell_mk_nil, tell_mk] at h
      obtain ⟨rfl, rfl⟩ := mk_inj h
      obtain ⟨n, c1, c2, c3⟩ := mtTraverseT_cost g hH sh.leaves0.len ha ht'
      rw [totalLeaves_zero, Nat.zero_add] at c1
      have e1 := (hF v).2.1
      have hph := Phi_le (m := p.tree_height + 1) (st.map fun s => { s with leaves := 0 }) (fun s hs => (sh.leaves0.states_mem s hs).stack_len)
      rw [sh.leaves0.states_len] at hph
      have := hw k
      rw [e1, List.length_append, c1]
      exact ⟨by omega, by omega, fun h => by omega, fun _ => by omega⟩
  · subst hi
    obtain ⟨o', e, h1, h2⟩ := fastXmssmtSignT_last (H := H) f hH hk sh sm l0 m hsm
    rw [e] at h
    obtain ⟨rfl, rfl⟩ := mk_inj h
    have := hw (Key.zero p)
    rw [h2]
    exact ⟨by omega, by omega, fun h => by omega, fun _ => by omega⟩
  · rw [Key.fast, skHead_mat, List.append_assoc] at h
    obtain ⟨o', e, h1, h2⟩ := fastXmssmtSignT_over (H := H) f (toByte_length idx p.index_bytes) (body := k.mat ++ extBytes st sg)
      (by rw [List.length_append, Key.mat_length hk, extBytes_length sh, f.sk, fastSkBytes]; omega)
      (by rw [toNat_toByte, Nat.mod_eq_of_lt hidx]; omega) sm l0 m
    rw [e] at h
    obtain ⟨rfl, rfl⟩ := mk_inj h
    rw [h2]
    exact ⟨by simp, by simp, fun _ => rfl, fun h => by omega⟩

end HashCalls
open HashCalls

/-! ### C74 -/

/-- **C74 (key generation).**  The fast key generation makes the calls for the first tree of every layer and for the signatures of
the roots of all but the top one; the number of calls lies within the given bounds, whatever the seeds are. -/
theorem C74_keygen (hp : f.parseFast oid = some p) (hH : coreHash P p.func p.n = some H) (pk0 sk0 : Bytes)
    (hpk : pk0.length = 4 + p.pk_bytes) (hsk : sk0.length = 4 + p.sk_bytes) (seed : Nat → Bytes) (a b c : Bytes)
    (ha : a.length = p.n) (hb : b.length = p.n) (hc : c.length = p.n) (hs : seed p.n = a ++ b ++ c) :
    ∃ l, callsOf (f.keypairFastT P pk0 sk0 oid seed) = some l ∧ l = Calls.keygenAll p (suiteOf p H) a c ∧
      p.d * treeCount p ≤ l.length ∧
      l.length ≤ p.d * treeCount p + (p.d - 1) * (p.wots_len + 3 * (p.wots_len * (p.wots_w - 1))) := by
  obtain ⟨g, hskb, ho, _, _, _⟩ := parseFast_good hp
  obtain ⟨H', hH', hHl⟩ := Family.hashFast (P := P) hp
  rw [hH] at hH'
  obtain rfl := Option.some.inj hH'
  have hd := g.d_pos
  refine ⟨_, ?_, rfl, ?_⟩
  · cases f with
    | xmss =>
      have f1 := parseFast_fast1 hp
      obtain ⟨s, _, _, e⟩ := fastXmssKeypairT_eq f1 hHl (pk0.drop 4) (sk0.drop 4) a b c
        (by rw [List.length_drop, hpk, g.pk_eq]; omega) (by rw [List.length_drop, hsk]; omega) ha hb hc
      rw [Family.keypairFastT, apiKeypairFastT_eq (parse := parseXmssFast) hp hH (by omega) (by omega), hs, e]
      trsimp
      rw [callsOf, Calls.keygenAll, f1.d]
      rfl
    | xmssmt =>
      have f1 := parseFast_mt hp
      obtain ⟨_, _, st, sg, _, _, _, _, _, e⟩ := fastXmssmtKeypairT_eq f1 hHl (pk0.drop 4) (sk0.drop 4) a b c
        (by rw [List.length_drop, hpk, g.pk_eq]; omega) (by rw [List.length_drop, hsk]; omega) ha hb hc
      rw [Family.keypairFastT, apiKeypairFastT_eq (parse := parseXmssmtFast) hp hH (by omega) (by omega), hs, e]
      trsimp
      rw [callsOf, Calls.keygenAll, layerCalls_eq g, List.range_eq_range']
      rfl
  · have h1 : ∀ l : List Nat, l.length * treeCount p ≤ (l.map fun i => Calls.tree p p.tree_height ++
          Calls.wots p (suiteOf p H) ((suiteOf p H).treeRoot a c i 0)).flatten.length ∧
        (l.map fun i => Calls.tree p p.tree_height ++
          Calls.wots p (suiteOf p H) ((suiteOf p H).treeRoot a c i 0)).flatten.length ≤ l.length * treeCount p + l.length * wotsMax p := by
      intro l
      induction l with
      | nil => simp
      | cons i l ih =>
        have hw : (Calls.wots p (suiteOf p H) ((suiteOf p H).treeRoot a c i 0)).length ≤ wotsMax p := wotsCalls_le (H := H) g _
        have ht : (Calls.tree p p.tree_height).length = treeCount p := tree_length p _
        simp only [List.map_cons, List.flatten_cons, List.length_append, List.length_cons, Nat.add_mul, Nat.one_mul, ht]
        omega
    obtain ⟨h2, h3⟩ := h1 (List.range (p.d - 1))
    rw [List.length_range] at h2 h3
    have ht : (Calls.keygen p).length = treeCount p := tree_length p _
    have e : p.d * treeCount p = (p.d - 1) * treeCount p + treeCount p := by
      conv_lhs => rw [show p.d = p.d - 1 + 1 by omega, Nat.add_mul, Nat.one_mul]
    rw [Calls.keygenAll, List.length_append, ht, e]
    change _ ∧ _ ≤ _ + (p.d - 1) * wotsMax p
    omega

/-- **C74 (signing, any state).**  Whatever bytes are stored as traversal state: if the call is defined, the number of hash calls is
determined, up to the given constants, by the number of leaves it computes; a key that is used up hashes nothing, any other at least
the message digest and the secrets of one WOTS+ key. -/
theorem C74_sign (hp : f.parseFast oid = some p) (hH : coreHash P p.func p.n = some H) (k : Key) (hk : k.Valid p)
    (idx : Nat) (hidx : idx < 256 ^ p.index_bytes) (ext : Bytes) (hext : p.index_bytes + 4 * p.n + ext.length = p.sk_bytes)
    (sm : Bytes) (l0 : Nat) (m : Bytes) (hsm : p.sig_bytes + m.length ≤ sm.length) (o : FastOut)
    (h : f.signFast P (k.damaged p oid idx ext) sm l0 m = some o) :
    ∃ l, callsOf (f.signFastT P (k.damaged p oid idx ext) sm l0 m) = some l ∧
      (2 ^ p.full_height ≤ idx → l = []) ∧ (idx < 2 ^ p.full_height → 2 + p.wots_len ≤ l.length) ∧
      o.leaves * leafCount p ≤ l.length ∧
      l.length ≤ 2 + wotsMax p + o.leaves * (leafCount p + 4) + 4 * ((2 * p.d - 1) * (p.tree_height + 1)) + p.d * (wotsMax p + 4) ∧
      (f = .xmss → o.leaves ≤ p.insts / 2 + 1 ∧
        l.length ≤ 2 + wotsMax p + (p.insts / 2 + 1) * (leafCount p + 4) + 4 * (p.tree_height + 1) + 4) := by
  obtain ⟨g, hskb, ho, _, _, _⟩ := parseFast_good hp
  obtain ⟨H', hH', hHl⟩ := Family.hashFast (P := P) hp
  rw [hH] at hH'
  obtain rfl := Option.some.inj hH'
  obtain ⟨st, sg, sh, rfl⟩ := ext_any k hk idx hskb hext
  have hdam : k.damaged p oid idx (extBytes st sg) = Rfc.toByte oid 4 ++ k.fast p idx st sg := by
    rw [Key.damaged, Key.fast, skHead_mat]
  have hv := (C74_same P f).2 (k.damaged p oid idx (extBytes st sg)) sm l0 m
  rw [h] at hv
  rw [hdam] at hv ⊢
  cases f with
  | xmss =>
    have f1 := parseFast_fast1 hp
    rw [Family.signFastT, apiSignFastT_eq (parse := parseXmssFast) hp ho hH] at hv ⊢
    cases ht : fastXmssSignT (κ := Nat) H p (k.fast p idx st sg) sm l0 m with
    | none => rw [ht] at hv; cases hv
    | some r =>
      obtain ⟨o', l⟩ := r
      have ht' : fastXmssSignT H p (k.fast p idx st sg) sm l0 m = mk o' l := ht
      obtain ⟨c1, c2, c3, c4, c5⟩ := fastXmssSignT_cost f1 hHl hk hidx sh sm l0 m hsm ht'
      rw [ht', bind_mk, pure_eq, tell_mk_nil] at hv
      have e := Option.some.inj hv
      have hl : o.leaves = o'.leaves := by rw [← e]
      refine ⟨l, ?_, c4, c5, by rw [hl]; exact c1, ?_, fun _ => ⟨by rw [hl]; exact c2, ?_⟩⟩
      · change callsOf ((mk o' l : Tr FastOut) >>= _) = _
        rw [bind_mk, pure_eq, tell_mk_nil]
        rfl
      · rw [hl, f1.d]; omega
      · have := Nat.mul_le_mul_right (leafCount p + 4) c2
        omega
  | xmssmt =>
    have f1 := parseFast_mt hp
    rw [Family.signFastT, apiSignFastT_eq (parse := parseXmssmtFast) hp ho hH] at hv ⊢
    cases ht : fastXmssmtSignT (κ := Nat) H p (k.fast p idx st sg) sm l0 m with
    | none => rw [ht] at hv; cases hv
    | some r =>
      obtain ⟨o', l⟩ := r
      have ht' : fastXmssmtSignT H p (k.fast p idx st sg) sm l0 m = mk o' l := ht
      obtain ⟨c1, c3, c4, c5⟩ := fastXmssmtSignT_cost f1 hHl hk hidx sh sm l0 m hsm ht'
      rw [ht', bind_mk, pure_eq, tell_mk_nil] at hv
      have e := Option.some.inj hv
      have hl : o.leaves = o'.leaves := by rw [← e]
      refine ⟨l, ?_, c4, c5, by rw [hl]; exact c1, by rw [hl]; exact c3, nofun⟩
      change callsOf ((mk o' l : Tr FastOut) >>= _) = _
      rw [bind_mk, pure_eq, tell_mk_nil]
      rfl

namespace HashCalls

/-- Every key buffer of the right size. -/
theorem damaged_of_length (hp : f.parseFast oid = some p) {body : Bytes} (hb : body.length = p.sk_bytes) :
    ∃ (k : Key) (idx : Nat) (ext : Bytes), k.Valid p ∧ idx < 256 ^ p.index_bytes ∧ p.index_bytes + 4 * p.n + ext.length = p.sk_bytes ∧
      Rfc.toByte oid 4 ++ body = k.damaged p oid idx ext := by
  obtain ⟨g, hskb, _, _, _, _⟩ := parseFast_good hp
  have hl : p.index_bytes + 4 * p.n ≤ p.sk_bytes := by rw [hskb, fastSkBytes]; omega
  set ib := body.take p.index_bytes with hib
  set r0 := body.drop p.index_bytes with hr0
  have l0 : ib.length = p.index_bytes := by rw [hib, List.length_take]; omega
  have l1 : r0.length = p.sk_bytes - p.index_bytes := by rw [hr0, List.length_drop]; omega
  refine ⟨⟨r0.take p.n, (r0.drop p.n).take p.n, (r0.drop (p.n + p.n)).take p.n, (r0.drop (p.n + p.n + p.n)).take p.n⟩,
    Rfc.toNat ib, r0.drop (p.n + p.n + p.n + p.n), ⟨?_, ?_, ?_, ?_⟩, ?_, ?_, ?_⟩
  · simp only [List.length_take]; omega
  · simp only [List.length_take, List.length_drop]; omega
  · simp only [List.length_take, List.length_drop]; omega
  · simp only [List.length_take, List.length_drop]; omega
  · rw [← l0]; exact toNat_lt ib
  · rw [List.length_drop]; omega
  · have e : ∀ (x : Bytes) a b, (x.drop a).take b ++ x.drop (a + b) = x.drop a := by
      intro x a b; rw [← List.drop_drop, List.take_append_drop]
    rw [Key.damaged, Key.mat]
    simp only [List.append_assoc]
    rw [e, e, e, List.take_append_drop, ← l0, toByte_toNat, hib, hr0, List.take_append_drop]

end HashCalls

/-- **C74 (histories, any key).**  From any key buffer of the right size: if the history is defined, every call satisfies the bounds of
`C74_sign`. -/
theorem C74_history (hp : f.parseFast oid = some p) (body : Bytes) (hb : body.length = p.sk_bytes) (cs : List Call)
    (hcs : ∀ c ∈ cs, p.sig_bytes + c.msg.length ≤ c.sm.length) (outs : List FastOut)
    (h : signAllFast P f (Rfc.toByte oid 4 ++ body) cs = some outs) :
    ∃ rs, signAllFastT P f (Rfc.toByte oid 4 ++ body) cs = some rs ∧ rs.map Prod.fst = outs ∧ rs.length = cs.length ∧
      ∀ r ∈ rs, r.1.leaves * leafCount p ≤ r.2.length ∧
        r.2.length ≤ 2 + wotsMax p + r.1.leaves * (leafCount p + 4) + 4 * ((2 * p.d - 1) * (p.tree_height + 1)) + p.d * (wotsMax p + 4) ∧
        (f = .xmss → r.2.length ≤ 2 + wotsMax p + (p.insts / 2 + 1) * (leafCount p + 4) + 4 * (p.tree_height + 1) + 4) := by
  obtain ⟨g, hskb, ho, _, _, _⟩ := parseFast_good hp
  obtain ⟨H, hH, hHl⟩ := Family.hashFast (P := P) hp
  have hext : p.index_bytes + 4 * p.n ≤ p.sk_bytes := by rw [hskb, fastSkBytes]; omega
  induction cs generalizing body outs with
  | nil => cases h; exact ⟨[], rfl, rfl, rfl, by simp⟩
  | cons c cs ih =>
    rw [signAllFast] at h
    obtain ⟨o, h1, h⟩ := Option.bind_eq_some_iff.mp h
    obtain ⟨os, h2, h⟩ := Option.bind_eq_some_iff.mp h
    cases h
    obtain ⟨k, idx, ext, hk, hidx, hx, e⟩ := damaged_of_length hp hb
    rw [e] at h1 ⊢
    have hsm := hcs c (by simp)
    obtain ⟨l, d1, _, _, d2, d3, d4⟩ := C74_sign hp hH k hk idx hidx ext hx c.sm c.smlen0 c.msg hsm o h1
    have post := C56_damaged_state hp hH k hk idx hidx ext hx c hsm o h1
    obtain ⟨body', hb', e'⟩ : ∃ body', body'.length = p.sk_bytes ∧ o.sk = Rfc.toByte oid 4 ++ body' := by
      rcases Nat.lt_trichotomy (idx + 1) (2 ^ p.full_height) with hi | hi | hi
      · obtain ⟨_, _, _, x, hx, e⟩ := post.ok hi
        exact ⟨_, by rw [List.length_append, List.length_append, toByte_length, Key.mat_length hk]; exact hx, e⟩
      · obtain ⟨_, _, _, x, hx, e⟩ := post.last hi
        exact ⟨_, by rw [List.length_append, List.length_append, toByte_length, Key.mat_length (zero_valid p)]; exact hx, e⟩
      · obtain ⟨_, _, _, e⟩ := post.over (by omega)
        exact ⟨_, by simp; omega, e⟩
    rw [e'] at h2
    obtain ⟨rs, r1, r2, r4, r3⟩ := ih body' hb' (fun c hc => hcs c (by simp [hc])) os h2
    refine ⟨(o, l) :: rs, ?_, by rw [List.map_cons, r2], by simp [r4], ?_⟩
    · rw [signAllFastT, (C74_same P f).2, h1, d1]
      simp only [Option.bind_eq_bind, Option.bind_some]
      rw [e', r1]
      rfl
    · intro r hr
      rcases List.mem_cons.mp hr with rfl | hr
      · exact ⟨d2, d3, fun h => (d4 h).2⟩
      · exact r3 r hr

/-- **C74 (XMSS^MT histories).**  In a history from a generated key, every call that is not one of the busy ones of C35 makes at most
the given number of hash calls; for the sets with `d ≤ h'/2 + 1` these are all calls. -/
theorem C74_xmssmt (hp : parseXmssmtFast oid = some p) (pk0 sk0 : Bytes)
    (hpk : pk0.length = 4 + p.pk_bytes) (hsk : sk0.length = 4 + p.sk_bytes) (seed : Nat → Bytes)
    (hs : (seed p.n).length = 3 * p.n) :
    ∃ pk sk, xmssmtKeypairFast P pk0 sk0 oid seed = some (0, pk, sk) ∧
      ∀ cs : List Call, (∀ c ∈ cs, p.sig_bytes + c.msg.length ≤ c.sm.length) → FastCovered p cs →
        ∃ rs, signAllFastT P .xmssmt sk cs = some rs ∧ rs.length = cs.length ∧
          ∀ (j : Nat) (o : FastOut) (l : List Nat), rs[j]? = some (o, l) →
            p.d ≤ p.tree_height / 2 + 1 ∨ ¬ 2 ^ (p.tree_height * (p.tree_height / 2 + 1)) ∣ j + 1 →
            l.length ≤ 2 + wotsMax p + (p.tree_height / 2 + 2) * (leafCount p + 4) + 4 * ((2 * p.d - 1) * (p.tree_height + 1)) +
              p.d * (wotsMax p + 4) := by
  obtain ⟨H, hH, hHl⟩ := Family.hashFast (P := P) (f := .xmssmt) hp
  obtain ⟨k, _, _, _, body, hb, e, _⟩ := fast_history (f := .xmssmt) hp hH pk0 sk0 hpk hsk seed hs
  obtain ⟨pk, sk, e2, hist⟩ := C35_fast_xmssmt_work_partial (P := P) hp pk0 sk0 hpk hsk seed hs
  have e' : xmssmtKeypairFast P pk0 sk0 oid seed = some (0, k.pk oid, Rfc.toByte oid 4 ++ body) := e
  rw [e'] at e2
  simp only [Option.some.injEq, Prod.mk.injEq, true_and] at e2
  obtain ⟨rfl, rfl⟩ := e2
  refine ⟨_, _, e', ?_⟩
  intro cs hcs hcov
  obtain ⟨os, h1, h2, h3⟩ := hist cs hcs hcov.1 hcov.2
  obtain ⟨rs, r1, r2, r4, r3⟩ := C74_history (f := .xmssmt) hp body hb cs hcs os h1
  refine ⟨rs, r1, by rw [← h2, ← r2, List.length_map], ?_⟩
  intro j o l hj hc
  have ho : os[j]? = some o := by rw [← r2, List.getElem?_map, hj]; rfl
  have hw := (h3 j o ho hc).1
  have hle : o.leaves ≤ p.tree_height / 2 + 2 := le_trans hw (by omega)
  obtain ⟨_, b, _⟩ := r3 _ (List.mem_of_getElem? hj)
  have := Nat.mul_le_mul_right (leafCount p + 4) hle
  simp only at b
  omega

/-- **C74 (the sets 20/4, 40/8 and 60/12).**  Every call, also those at which three layers change their tree, for which the bound of
`C74_xmssmt` does not hold (`C35_fails`). -/
theorem C74_xmssmt_worst (hp : parseXmssmtFast oid = some p) (h5 : p.tree_height = 5) (h4 : 4 ≤ p.d) (pk0 sk0 : Bytes)
    (hpk : pk0.length = 4 + p.pk_bytes) (hsk : sk0.length = 4 + p.sk_bytes) (seed : Nat → Bytes)
    (hs : (seed p.n).length = 3 * p.n) :
    ∃ pk sk, xmssmtKeypairFast P pk0 sk0 oid seed = some (0, pk, sk) ∧
      ∀ cs : List Call, (∀ c ∈ cs, p.sig_bytes + c.msg.length ≤ c.sm.length) → (p.d = 4 ∨ cs.length < 2 ^ 20) →
        ∃ rs, signAllFastT P .xmssmt sk cs = some rs ∧ rs.length = cs.length ∧
          ∀ r ∈ rs, r.2.length ≤ 2 + wotsMax p + (p.d + 4) * (leafCount p + 4) + 24 * (2 * p.d - 1) + p.d * (wotsMax p + 4) := by
  obtain ⟨H, hH, hHl⟩ := Family.hashFast (P := P) (f := .xmssmt) hp
  obtain ⟨k, _, _, _, body, hb, e, _⟩ := fast_history (f := .xmssmt) hp hH pk0 sk0 hpk hsk seed hs
  obtain ⟨pk, sk, e2, hist⟩ := C35_worst_call (P := P) hp h5 h4 pk0 sk0 hpk hsk seed hs
  have e' : xmssmtKeypairFast P pk0 sk0 oid seed = some (0, k.pk oid, Rfc.toByte oid 4 ++ body) := e
  rw [e'] at e2
  simp only [Option.some.injEq, Prod.mk.injEq, true_and] at e2
  obtain ⟨rfl, rfl⟩ := e2
  refine ⟨_, _, e', ?_⟩
  intro cs hcs hcov
  obtain ⟨os, h1, h2, h3, _⟩ := hist cs hcs hcov
  obtain ⟨rs, r1, r2, r4, r3⟩ := C74_history (f := .xmssmt) hp body hb cs hcs os h1
  refine ⟨rs, r1, by rw [← h2, ← r2, List.length_map], ?_⟩
  intro r hr
  have hle := h3 r.1 (by rw [← r2]; exact List.mem_map_of_mem hr)
  obtain ⟨_, b, _⟩ := r3 r hr
  have := Nat.mul_le_mul_right (leafCount p + 4) hle
  rw [h5] at b
  omega

/-- C74 in numbers.  XMSS-SHA2_10_256: the fast key generation makes the same 3430396 calls as the simple one (C72_example); in every
history from any key buffer whatsoever, no call makes more than 23232 (the simple one needs up to 3433480). -/
theorem C74_example (P : Prims) :
    (∀ (a b c : Bytes), a.length = 32 → b.length = 32 → c.length = 32 → ∀ pk sk : Bytes, pk.length = 68 → sk.length = 1377 →
      ∃ l, callsOf (Family.keypairFastT P .xmss pk sk 1 (fun _ => a ++ b ++ c)) = some l ∧ l.length = 3430396) ∧
    (∀ (body : Bytes), body.length = 1373 → ∀ cs : List Call, (∀ c ∈ cs, 2500 + c.msg.length ≤ c.sm.length) →
      ∀ outs, signAllFast P .xmss (Rfc.toByte 1 4 ++ body) cs = some outs →
        ∃ rs, signAllFastT P .xmss (Rfc.toByte 1 4 ++ body) cs = some rs ∧ rs.length = cs.length ∧ ∀ r ∈ rs, r.2.length ≤ 23232) := by
  have hp : Family.xmss.parseFast 1 = some { Reuse.q with sk_bytes := 1373 } := by decide +kernel
  have hH : coreHash P ({ Reuse.q with sk_bytes := 1373 } : Params).func ({ Reuse.q with sk_bytes := 1373 } : Params).n = some P.sha256 := rfl
  refine ⟨?_, ?_⟩
  · intro a b c ha hb hc pk sk h1 h2
    obtain ⟨l, e, _, l1, l2⟩ := C74_keygen hp hH pk sk h1 h2 (fun _ => a ++ b ++ c) a b c ha hb hc rfl
    refine ⟨l, e, ?_⟩
    have t : ({ Reuse.q with sk_bytes := 1373 } : Params).d * treeCount { Reuse.q with sk_bytes := 1373 } = 3430396 := by decide +kernel
    have t2 : ({ Reuse.q with sk_bytes := 1373 } : Params).d - 1 = 0 := by decide
    rw [t, t2] at l2
    rw [t] at l1
    omega
  · intro body hb cs hcs outs h
    obtain ⟨rs, r1, r2, r4, r3⟩ := C74_history (P := P) (f := .xmss) hp body hb cs hcs outs h
    exact ⟨rs, r1, r4, fun r hr => le_trans ((r3 r hr).2.2 rfl) (by decide +kernel)⟩

end Xmss
