import Verif.Proof.LowFastMtKey
import Verif.Props.FastDamaged
import Verif.Props.KeygenOs
import Verif.Props.LowUse
/-
C84: the fast (BDS) implementation on explicit memory, with pointers into it and C integers.
-/
namespace Xmss.Low

variable {P : Prims} {f : Family} {oid : Nat} {p : Params} {H : Bytes → Bytes}

theorem fast0_of (hp : f.parseFast oid = some p) (hH : Xmss.coreHash P p.func p.n = some H) : Fast0 P H p := by
  obtain ⟨g, _, _, h0, _, _⟩ := parseFast_good hp
  obtain ⟨H', hH', hHl⟩ := Family.hashFast (P := P) hp
  rw [hH] at hH'
  obtain rfl := Option.some.inj hH'
  exact ⟨g, h0, hH, hHl⟩

/-- The first model of the core sign function of a family. -/
def coreSignFast : Family → (Bytes → Bytes) → Params → Bytes → Bytes → Nat → Bytes → Option FastOut
  | .xmss => fastXmssSign
  | .xmssmt => fastXmssmtSign

theorem signFast_core (f : Family) : f.signFast P = apiSignFast P f.parseFast (coreSignFast f) := by cases f <;> rfl

theorem fastSignL_of (hp : f.parseFast oid = some p) (hH : Xmss.coreHash P p.func p.n = some H) {m0 : Mem} {sk sm msg : Ptr}
    {l0 : Nat} {key sm0 M : Bytes} {o : FastOut}
    (hkl : key.length = p.sk_bytes) (hsml : p.sig_bytes + M.length ≤ sm0.length) (ho : coreSignFast f H p key sm0 l0 M = some o)
    (hcnt : f = .xmssmt → Counted p key) (hk : Holds m0 sk key) (hM : Holds m0 msg M) (hv : Valid m0 sm (p.sig_bytes + M.length))
    (d1 : Disj sk p.sk_bytes sm (p.sig_bytes + M.length)) (d2 : Disj msg M.length sm (p.sig_bytes + M.length))
    (d3 : Disj msg M.length sk p.sk_bytes) (hml : p.sig_bytes + M.length < 2 ^ 64) :
    ∃ m', fastSignL P f p m0 sk sm l0 msg M.length = some (o.ret, o.smlen, m') ∧ Holds m' sk o.sk ∧ o.sk.length = p.sk_bytes ∧
      (o.ret = 0 → OnlyIn m0 m' [(sk, p.sk_bytes), (sm, p.sig_bytes + M.length)] ∧
        ∃ x, x.length = p.sig_bytes + M.length ∧ Holds m' sm x ∧ o.sm = x ++ sm0.drop (p.sig_bytes + M.length)) ∧
      (o.ret ≠ 0 → OnlyIn m0 m' [(sk, p.sk_bytes)] ∧ o.sm = sm0) ∧ (f = .xmssmt → Counted p o.sk) := by
  cases f with
  | xmss =>
    obtain ⟨m', h1, h2, h3, h4, h5⟩ := fastXmssSignL_of (parseFast_fast1 hp) (fast0_of hp hH) hkl hsml ho hk hM hv d1 d2 d3 hml
    exact ⟨m', h1, h2, h3, h4, h5, fun h => by cases h⟩
  | xmssmt =>
    obtain ⟨m', h1, h2, h3, h4, h5, h6⟩ := fastXmssmtSignL_of (parseFast_mt hp) (fast0_of hp hH) hkl hsml ho (hcnt rfl) hk hM hv d1 d2 d3 hml
    exact ⟨m', h1, h2, h3, h4, h5, fun _ => h6⟩

theorem fastKeypairL_of (hp : f.parseFast oid = some p) (hH : Xmss.coreHash P p.func p.n = some H) {m0 : Mem}
    {pk sk : Ptr} {pk0 key sA sB sC pk' sk' : Bytes}
    (hkl : key.length = p.sk_bytes) (hpl : pk0.length = 2 * p.n) (hA : sA.length = p.n) (hB : sB.length = p.n) (hC : sC.length = p.n)
    (ho : fastCoreKeypair f H p pk0 key (sA ++ sB ++ sC) = some (pk', sk')) (hk : Holds m0 sk key) (hv : Valid m0 pk (2 * p.n))
    (d1 : Disj pk (2 * p.n) sk p.sk_bytes) :
    ∃ m', fastKeypairL P f p m0 pk sk (sA ++ sB ++ sC) = some m' ∧ Holds m' pk pk' ∧ Holds m' sk sk' ∧
      OnlyIn m0 m' [(pk, 2 * p.n), (sk, p.sk_bytes)] ∧ (f = .xmssmt → Counted p sk') := by
  cases f with
  | xmss =>
    obtain ⟨m', h1, h2, h3, h4⟩ := fastXmssKeypairL_of (parseFast_fast1 hp) (fast0_of hp hH) hkl hpl hA hB hC ho hk hv d1
    exact ⟨m', h1, h2, h3, h4, fun h => by cases h⟩
  | xmssmt =>
    obtain ⟨m', h1, h2, h3, h4, h5⟩ := fastXmssmtKeypairL_of (parseFast_mt hp) (fast0_of hp hH) hkl hpl hA hB hC ho hk hv d1
    exact ⟨m', h1, h2, h3, h4, fun _ => h5⟩

theorem key_split {b : Bytes} (ht : b.take 4 = Rfc.toByte oid 4) : b = Rfc.toByte oid 4 ++ b.drop 4 := by
  rw [← ht, List.take_append_drop]

theorem within_sub {q : Ptr} {a k len x i : Nat} (h : k + len ≤ a) : Within [(q + k, len)] x i → Within [(q, a)] x i := by
  rw [within_one, within_one]
  simp only [add_blk, add_off]
  omega

/-- **C84 (signing).**  (`Counted`, for XMSSMT: the leaf counter of every traversal state in the key is at most the number of
leaves of a tree, as in every key made by `C84_keypair`; the call preserves it.)  A secret key anywhere in memory, an output buffer and a message that overlap neither it nor each
other: if the first model says what the call does to the contents of the buffers, that is what it does to memory. -/
theorem C84_sign_refines (hp : f.parseFast oid = some p) (m : Mem) (sk sm msg : Ptr) (l0 : Nat)
    (sk0 sm0 M : Bytes) (o : FastOut) (hskl : sk0.length = 4 + p.sk_bytes) (hoid : sk0.take 4 = Rfc.toByte oid 4)
    (hsml : p.sig_bytes + M.length ≤ sm0.length) (hcnt : f = .xmssmt → Counted p (sk0.drop 4))
    (ho : f.signFast P sk0 sm0 l0 M = some o) (hsk : Holds m sk sk0) (hsm : Holds m sm sm0) (hM : Holds m msg M) (d1 : Apart sk sk0.length sm sm0.length)
    (d2 : Apart msg M.length sm (p.sig_bytes + M.length)) (d3 : Apart msg M.length sk sk0.length)
    (hlen : p.sig_bytes + M.length < 2 ^ 64) :
    ∃ m', apiSignFastL P f m sk sm l0 msg M.length = some (o.ret, o.smlen, m') ∧
      Holds m' sk o.sk ∧ o.sk.length = sk0.length ∧ o.sk.take 4 = Rfc.toByte oid 4 ∧ Holds m' sm o.sm ∧
      OnlyIn m m' [(sk + 4, p.sk_bytes), (sm, p.sig_bytes + M.length)] ∧ (f = .xmssmt → Counted p (o.sk.drop 4)) := by
  obtain ⟨g, hskb, ho8, _, _, _⟩ := parseFast_good hp
  obtain ⟨H, hH, hHl⟩ := Family.hashFast (P := P) hp
  have l4 : (Rfc.toByte oid 4).length = 4 := toByte_length _ _
  have hsplit := key_split hoid
  rw [hskl] at d1 d3
  set body := sk0.drop 4 with hbody
  have hbl : body.length = p.sk_bytes := by rw [hbody, List.length_drop]; omega
  rw [hsplit] at hsk
  rw [signFast_core, hsplit] at ho
  obtain ⟨o', ho', rfl⟩ := apiSignFast_inv hp ho8 hH ho
  have hread : oidReadLoop m sk oidLen 0 0 = some oid := oidRead_key hsk (by omega)
  have hskr := hsk.right
  rw [l4] at hskr
  have D1 : Disj sk (4 + p.sk_bytes) sm sm0.length := d1
  have D3 : Disj msg M.length sk (4 + p.sk_bytes) := d3
  obtain ⟨m', e1, e2, e3, e4, e5, e6⟩ := fastSignL_of (P := P) hp hH (sk := sk + 4) (l0 := l0) hbl hsml ho' hcnt hskr hM (hsm.room hsml)
    ((D1.mono (Nat.le_refl _) hsml).sub_left 4 _ (Nat.le_refl _)) d2 (D3.sub 4 _ (Nat.le_refl _)) hlen
  have hO : OnlyIn m m' [(sk + 4, p.sk_bytes), (sm, p.sig_bytes + M.length)] := by
    by_cases c : o'.ret = 0
    · exact (e4 c).1
    · exact (e5 c).1.mono fun x i h => by rw [within_cons]; exact Or.inl (within_one.mp h)
  have hbeh : ∀ r ∈ ([(sk + 4, p.sk_bytes), (sm, p.sig_bytes + M.length)] : List (Ptr × Nat)),
      Apart (sm + (p.sig_bytes + M.length)) (sm0.length - (p.sig_bytes + M.length)) r.1 r.2 := by
    intro r hr
    simp only [List.mem_cons, List.not_mem_nil, or_false] at hr
    rcases hr with rfl | rfl
    · exact Disj.sub (Disj.sub_left (Disj.symm D1) (p.sig_bytes + M.length) (sm0.length - (p.sig_bytes + M.length)) (by omega))
        4 _ (Nat.le_refl _)
    · right; right; simp only [add_off]; omega
  refine ⟨m', ?_, ?_, ?_, ?_, ?_, hO, fun h => by rw [List.drop_left' l4]; exact e6 h⟩
  · rw [apiSignFastL]
    simp only [Option.bind_eq_bind]
    rw [hread, Option.bind_some]
    simp only [hp]
    exact e1
  · refine Holds.append (hsk.left.keep hO ?_) (by rw [l4]; exact e2)
    intro r hr
    simp only [List.mem_cons, List.not_mem_nil, or_false] at hr
    rw [l4]
    rcases hr with rfl | rfl
    · right; left; exact Nat.le_refl _
    · exact Disj.mono D1 (by omega) hsml
  · simp only [List.length_append, l4, e3, hskl]
  · exact List.take_left' l4
  · by_cases c : o'.ret = 0
    · obtain ⟨_, x, hx, hX, e⟩ := e4 c
      dsimp only
      rw [e]
      exact hX.append (by rw [hx]; exact hsm.tail hO hsml hbeh)
    · obtain ⟨h1, e⟩ := e5 c
      dsimp only
      rw [e]
      refine hsm.keep h1 ?_
      intro r hr
      simp only [List.mem_singleton] at hr
      subst hr
      exact Disj.sub (Disj.symm D1) 4 _ (Nat.le_refl _)

/-- **C84 (key generation).**  Two separate buffers of the announced sizes, the secret-key buffer initialised (its old
contents are read and overwritten), the public-key buffer initialised or not: keypair is defined behaviour, returns 0, and
leaves in the buffers the two keys of the first model, whatever was in them. -/
theorem C84_keypair (hp : f.parseFast oid = some p) (m : Mem) (pk sk : Ptr) (sk0 : Bytes)
    (hskl : sk0.length = 4 + p.sk_bytes) (hpk : Room m pk (4 + p.pk_bytes)) (hsk : Holds m sk sk0)
    (hd : Apart pk (4 + p.pk_bytes) sk sk0.length) (seed : Nat → Bytes) (hs : (seed p.n).length = 3 * p.n)
    (pk0 : Bytes) (hpkl : pk0.length = 4 + p.pk_bytes) (r : Int) (pk' sk' : Bytes)
    (hk : f.keypairFast P pk0 sk0 oid seed = some (r, pk', sk')) :
    ∃ m', apiKeypairFastL P f m pk sk oid (fun q => seed q.n) = some (r, m') ∧ Holds m' pk pk' ∧ Holds m' sk sk' ∧
      OnlyIn m m' [(pk, 4 + p.pk_bytes), (sk, sk0.length)] ∧ (f = .xmssmt → Counted p (sk'.drop 4)) := by
  obtain ⟨g, hskb, ho8, _, _, _⟩ := parseFast_good hp
  obtain ⟨H, hH, hHl⟩ := Family.hashFast (P := P) hp
  have l4 : (Rfc.toByte oid 4).length = 4 := toByte_length _ _
  have o4 : (oidBytes oid).length = 4 := by rw [oidBytes_eq, l4]
  have hpkb := g.pk_eq
  have D : Disj pk (4 + 2 * p.n) sk (4 + p.sk_bytes) := by rw [← hpkb, ← hskl]; exact hd
  rw [hskl]
  rw [hpkb] at hpk ⊢
  have hvp : Valid m pk (4 + 2 * p.n) := hpk
  have hvs : Valid m sk (4 + p.sk_bytes) := by have := hsk.1; rw [hskl] at this; exact this
  -- the first model
  obtain ⟨pk1, sk1, hc⟩ : ∃ pk1 sk1, fastCoreKeypair f H p (pk0.drop 4) (sk0.drop 4) (seed p.n) = some (pk1, sk1) := by
    cases h : fastCoreKeypair f H p (pk0.drop 4) (sk0.drop 4) (seed p.n) with
    | some r => exact ⟨r.1, r.2, rfl⟩
    | none =>
      exfalso
      have w : ∀ b : Bytes, 4 ≤ b.length → wr b 0 (Rfc.toByte oid 4) = some (Rfc.toByte oid 4 ++ b.drop 4) := by
        intro b hb
        rw [wr_some (by rw [l4]; omega), l4]; simp
      have t1 : ∀ x : Bytes, (Rfc.toByte oid 4 ++ x).drop oidLen = x := fun x => List.drop_left' l4
      rw [keypairFast_core, apiKeypairFast, hp] at hk
      simp only [Option.bind_eq_bind, oidBytes_eq] at hk
      rw [w _ (by omega), w _ (by omega)] at hk
      simp only [Option.bind_some, hH, t1, h, Option.bind_none] at hk
      cases hk
  have hk2 := hk
  rw [keypairFast_core, apiKeypairFast_eq hp hH (by omega) (by omega) hc] at hk2
  simp only [Option.some.injEq, Prod.mk.injEq] at hk2
  obtain ⟨rfl, rfl, rfl⟩ := hk2
  -- the second
  have vp4 : Valid m (pk + 0) 4 := hvp.sub 0 4 (by omega)
  have vs4 : Valid m (sk + 0) 4 := hvs.sub 0 4 (by omega)
  obtain ⟨a1, a2, e1, e2, e3⟩ := oidWriteLoop_of (oid := oid) (pk := pk) (sk := sk) vp4 vs4 (D.mono (by omega) (by omega))
  have q1 := store_onlyIn e1
  have q2 := store_onlyIn e2
  rw [o4] at q1 q2
  have hsplit : sk0 = sk0.take 4 ++ sk0.drop 4 := (List.take_append_drop 4 sk0).symm
  have hsk4 : Holds m (sk + 4) (sk0.drop 4) := by
    have h' : Holds m sk (sk0.take 4 ++ sk0.drop 4) := by rw [List.take_append_drop]; exact hsk
    have := h'.right
    rw [List.length_take, Nat.min_eq_left (by omega)] at this
    exact this
  have hdl : (sk0.drop 4).length = p.sk_bytes := by rw [List.length_drop]; omega
  have hs4 : Holds a2 (sk + 4) (sk0.drop 4) := by
    refine (hsk4.keep q1 ?_).keep q2 ?_ <;> rw [hdl] <;> intro r hr <;> simp only [List.mem_singleton] at hr <;> subst hr
    · exact Disj.sub_left (Disj.symm (D.mono (show 4 ≤ _ by omega) (Nat.le_refl _))) 4 _ (Nat.le_refl _)
    · right; right; exact Nat.le_refl _
  have h3 := split3 (seed p.n) p.n p.n
  rw [h3] at hc
  obtain ⟨m', f1, f2, f3, f4, f5⟩ := fastKeypairL_of (P := P) hp hH (pk := pk + 4) (pk0 := pk0.drop 4) hdl
    (by rw [List.length_drop]; omega) (by simp; omega) (by simp; omega) (by simp; omega) hc hs4
    ((keepValid q2 (keepValid q1 hvp)).sub 4 _ (by omega)) ((D.sub_left 4 (2 * p.n) (by omega)).sub 4 _ (Nat.le_refl _))
  rw [← h3] at f1
  have hpk4 : Holds a2 pk (Rfc.toByte oid 4) := by
    have := store_holds e1
    rw [oidBytes_eq] at this
    refine this.keep q2 ?_
    intro r hr
    simp only [List.mem_singleton] at hr
    subst hr
    rw [l4]
    exact D.mono (by omega) (by omega)
  have hsk44 : Holds a2 sk (Rfc.toByte oid 4) := by
    have := store_holds e2
    rwa [oidBytes_eq] at this
  refine ⟨m', ?_, ?_, ?_, ?_, fun h => by rw [List.drop_left' l4]; exact f5 h⟩
  · rw [apiKeypairFastL, hp]
    simp only [Option.bind_eq_bind]
    rw [e3, Option.bind_some]
    have : oidLen = 4 := rfl
    rw [this, f1, Option.bind_some]
  · refine Holds.append (hpk4.keep f4 ?_) (by rw [l4]; exact f2)
    intro r hr
    simp only [List.mem_cons, List.not_mem_nil, or_false] at hr
    rw [l4]
    rcases hr with rfl | rfl
    · right; left; exact Nat.le_refl _
    · exact Disj.sub (D.mono (show 4 ≤ _ by omega) (Nat.le_refl _)) 4 _ (Nat.le_refl _)
  · refine Holds.append (hsk44.keep f4 ?_) (by rw [l4]; exact f3)
    intro r hr
    simp only [List.mem_cons, List.not_mem_nil, or_false] at hr
    rw [l4]
    rcases hr with rfl | rfl
    · exact Disj.sub (Disj.symm (D.mono (Nat.le_refl _) (show 4 ≤ _ by omega))) 4 _ (Nat.le_refl _)
    · right; left; exact Nat.le_refl _
  · have w1 : ∀ x i, Within [(pk, 4)] x i → Within [(pk, 4 + 2 * p.n), (sk, 4 + p.sk_bytes)] x i := by
      intro x i h
      rw [within_one] at h
      rw [within_cons, within_one]
      omega
    have w2 : ∀ x i, Within [(sk, 4)] x i → Within [(pk, 4 + 2 * p.n), (sk, 4 + p.sk_bytes)] x i := by
      intro x i h
      rw [within_one] at h
      rw [within_cons, within_one]
      omega
    have w3 : ∀ x i, Within [(pk + 4, 2 * p.n), (sk + 4, p.sk_bytes)] x i → Within [(pk, 4 + 2 * p.n), (sk, 4 + p.sk_bytes)] x i := by
      intro x i h
      rw [within_cons, within_one] at h ⊢
      simp only [add_blk, add_off] at h ⊢
      omega
    exact (q1.trans q2 w1 w2).trans f4 (fun _ _ h => h) w3

/-- **C84 (key generation and signing, unknown OID).**  -1, and memory is not touched. -/
theorem C84_reject (hp : f.parseFast oid = none) (m : Mem) (pk sk sm msg : Ptr) (l0 mlen : Nat) (rnd : Params → Bytes) :
    apiKeypairFastL P f m pk sk oid rnd = some (-1, m) ∧
    (oid < 2 ^ 31 → Holds m sk (Rfc.toByte oid 4) → apiSignFastL P f m sk sm l0 msg mlen = some (-1, l0, m)) := by
  refine ⟨by rw [apiKeypairFastL, hp], fun ho h => ?_⟩
  have hread : oidReadLoop m sk oidLen 0 0 = some oid := oidRead_key (rest := []) (by rwa [List.append_nil]) ho
  rw [apiSignFastL]
  simp only [Option.bind_eq_bind]
  rw [hread, Option.bind_some]
  simp only [hp]

/-! ### Histories -/

/-- One sign call of a program: memory before it, the arguments, the contents of the message and of the output buffer. -/
structure FastStep where
  before : Mem
  sm : Ptr
  smlen0 : Nat
  msg : Ptr
  out0 : Bytes
  M : Bytes

/-- The call is made with proper buffers. -/
structure FastStep.Ok (p : Params) (sk : Ptr) (s : FastStep) : Prop where
  out : Holds s.before s.sm s.out0
  msg : Holds s.before s.msg s.M
  size : p.sig_bytes + s.M.length ≤ s.out0.length
  apart : Apart sk (4 + p.sk_bytes) s.sm s.out0.length
  apart1 : Apart s.msg s.M.length s.sm (p.sig_bytes + s.M.length)
  apart2 : Apart s.msg s.M.length sk (4 + p.sk_bytes)
  len : p.sig_bytes + s.M.length < 2 ^ 64

/-- A history of sign calls with the key at `sk`, which initially is `key`: between the calls the program may change
memory in any way, except for the key. -/
def FastHistory (P : Prims) (f : Family) (p : Params) (sk : Ptr) : Bytes → List FastStep → Prop
  | _, [] => True
  | key, s :: ss => Holds s.before sk key ∧
      ∀ r l m', apiSignFastL P f s.before sk s.sm s.smlen0 s.msg s.M.length = some (r, l, m') →
        ∃ key', key'.length = key.length ∧ Holds m' sk key' ∧ FastHistory P f p sk key' ss

/-- **C84 (histories).**  If the first model gives a history of sign calls a meaning, every such history at the pointer
level is defined and has the same return values, lengths, key bytes and outputs, call by call. -/
theorem C84_history (hp : f.parseFast oid = some p) (sk : Ptr) : ∀ (ss : List FastStep) (key : Bytes)
    (outs : List FastOut), key.length = 4 + p.sk_bytes → key.take 4 = Rfc.toByte oid 4 → (f = .xmssmt → Counted p (key.drop 4)) →
    (∀ s ∈ ss, s.Ok p sk) → FastHistory P f p sk key ss →
    signAllFast P f key (ss.map fun s => ⟨s.out0, s.smlen0, s.M⟩) = some outs →
      List.Forall₂ (fun s o => ∃ m', apiSignFastL P f s.before sk s.sm s.smlen0 s.msg s.M.length = some (o.ret, o.smlen, m') ∧
        Holds m' sk o.sk ∧ Holds m' s.sm o.sm) ss outs
  | [], _, outs, _, _, _, _, _, h => by
    rw [List.map_nil, signAllFast] at h
    obtain rfl := Option.some.inj h
    exact .nil
  | s :: ss, key, outs, hl, ht, hc, hok, ⟨hk, hn⟩, h => by
    have hs := hok s (by simp)
    rw [List.map_cons, signAllFast] at h
    simp only [Option.bind_eq_bind] at h
    obtain ⟨o, e1, h⟩ := Option.bind_eq_some_iff.mp h
    obtain ⟨os, e2, h⟩ := Option.bind_eq_some_iff.mp h
    obtain rfl := Option.some.inj h
    obtain ⟨m', r1, r2, r3, r4, r5, _, r6⟩ := C84_sign_refines (P := P) hp s.before sk s.sm s.msg s.smlen0 key s.out0 s.M o hl ht
      hs.size hc e1 hk hs.out hs.msg (by rw [hl]; exact hs.apart) hs.apart1 (by rw [hl]; exact hs.apart2) hs.len
    obtain ⟨key', k1, k2, k3⟩ := hn _ _ _ r1
    have e : key' = o.sk := k2.unique r2 (by rw [k1, r3])
    subst e
    exact .cons ⟨m', r1, r2, r5⟩ (C84_history hp sk ss _ os (by rw [r3, hl]) r4 r6 (fun s' h' => hok s' (by simp [h'])) k3 e2)

/-- **C84 (key generation and every history after it).**  Buffers as in `C84_keypair`: the call returns 0 and leaves
a key pair `k` made of the given seeds, with the root RFC 8391 prescribes; every history of sign calls with that key at the
pointer level (between the calls the program may do anything except change the key) is defined, and call number `j` does
what `PostFast` says: the signature RFC 8391 prescribes for index `j`, the next index stored, after the last index -2. -/
theorem C84_use (hp : f.parseFast oid = some p) (hH : Xmss.coreHash P p.func p.n = some H) (m : Mem)
    (pk sk : Ptr) (sk0 : Bytes) (hskl : sk0.length = 4 + p.sk_bytes) (hpk : Room m pk (4 + p.pk_bytes)) (hsk : Holds m sk sk0)
    (hd : Apart pk (4 + p.pk_bytes) sk sk0.length) (seed : Nat → Bytes) (hs : (seed p.n).length = 3 * p.n) :
    ∃ (k : Key) (key : Bytes) (m1 : Mem), k.Valid p ∧ k.Honest (suiteOf p H) ∧ seed p.n = k.skSeed ++ k.skPrf ++ k.pubSeed ∧
      apiKeypairFastL P f m pk sk oid (fun q => seed q.n) = some (0, m1) ∧ Holds m1 pk (k.pk oid) ∧ Holds m1 sk key ∧
      key.length = 4 + p.sk_bytes ∧ OnlyIn m m1 [(pk, 4 + p.pk_bytes), (sk, 4 + p.sk_bytes)] ∧
      ∀ ss : List FastStep, (∀ s ∈ ss, s.Ok p sk) → FastHistory P f p sk key ss → FastCovered p (ss.map fun s => ⟨s.out0, s.smlen0, s.M⟩) →
        ∀ j s, ss[j]? = some s → ∃ (o : FastOut) (m' : Mem),
          apiSignFastL P f s.before sk s.sm s.smlen0 s.msg s.M.length = some (o.ret, o.smlen, m') ∧
          PostFast p H k j ⟨s.out0, s.smlen0, s.M⟩ o ∧ Holds m' sk (Rfc.toByte oid 4 ++ o.sk) ∧ Holds m' s.sm o.sm := by
  have l4 : (Rfc.toByte oid 4).length = 4 := toByte_length _ _
  obtain ⟨k, hv, hh, hsd, body, hbl, e, hist⟩ := fast_history (P := P) hp hH (List.replicate (4 + p.pk_bytes) 0) sk0 (by simp) hskl seed hs
  obtain ⟨m1, e1, e2, e3, e4, e5⟩ := C84_keypair hp m pk sk sk0 hskl hpk hsk hd seed hs _ (by simp) _ _ _ e
  rw [hskl] at e4
  refine ⟨k, _, m1, hv, hh, hsd, e1, e2, e3, by rw [List.length_append, l4, hbl], e4, ?_⟩
  intro ss hok hss hcov j s hj
  have hsz : ∀ c ∈ (ss.map fun s => (⟨s.out0, s.smlen0, s.M⟩ : Call)), p.sig_bytes + c.msg.length ≤ c.sm.length := by
    intro c hc
    obtain ⟨s', hs', rfl⟩ := List.mem_map.mp hc
    exact (hok s' hs').size
  obtain ⟨os, h1, h2, h3⟩ := hist (ss.map fun s => ⟨s.out0, s.smlen0, s.M⟩) hsz hcov
  · have hF := C84_history hp sk ss _ _ (by rw [List.length_append, l4, hbl]) (List.take_left' l4) e5 hok hss h1
    obtain ⟨o, ho, post⟩ := h3 j ⟨s.out0, s.smlen0, s.M⟩ (by rw [List.getElem?_map, hj]; rfl)
    obtain ⟨hjl, rfl⟩ := List.getElem?_eq_some_iff.mp hj
    have hF' := (List.forall₂_iff_get.mp hF).2 j hjl (by
      have := (List.forall₂_iff_get.mp hF).1; omega)
    simp only [List.get_eq_getElem, List.getElem_map] at hF'
    obtain ⟨hol, rfl⟩ := List.getElem?_eq_some_iff.mp ho
    obtain ⟨m', g1, g2, g3⟩ := hF'
    exact ⟨_, m', g1, post, g2, g3⟩

/-! ### Verification -/

/-- **C84 (verification).**  As in C83: the program linked with the fast implementation verifies with the same code. -/
theorem C84_open (hp : f.parseFast oid = some p) (hH : Xmss.coreHash P p.func p.n = some H) (k : Key)
    (hr : k.root.length = p.n) (hps : k.pubSeed.length = p.n) (m : Mem) (mbuf sm pk : Ptr) (l0 : Nat) (sig M : Bytes)
    (hpk : Holds m pk (k.pk oid)) (hsm : Holds m sm (sig ++ M)) (hsig : sig.length = p.sig_bytes)
    (hm : Room m mbuf (p.sig_bytes + M.length))
    (d1 : Apart sm (p.sig_bytes + M.length) mbuf (p.sig_bytes + M.length))
    (d2 : Apart pk (4 + p.pk_bytes) mbuf (p.sig_bytes + M.length)) (hlen : p.sig_bytes + M.length < 2 ^ 64) :
    ∃ m', OnlyIn m m' [(mbuf, p.sig_bytes + M.length)] ∧
      ((suiteOf p H).verify k.root k.pubSeed M sig →
        apiOpen P f.parseFast m mbuf l0 sm (p.sig_bytes + M.length) pk = some (0, M.length, m') ∧ Holds m' mbuf M) ∧
      (¬ (suiteOf p H).verify k.root k.pubSeed M sig →
        apiOpen P f.parseFast m mbuf l0 sm (p.sig_bytes + M.length) pk = some (-1, 0, m') ∧
        Holds m' mbuf (List.replicate M.length 0)) := by
  obtain ⟨g, hskb, ho, _, _, _⟩ := parseFast_good hp
  have hHl := (fast0_of hp hH).hlen
  have hoid : oidReadLoop m pk oidLen 0 0 = some oid := oidRead_key hpk (by omega)
  have l4 : (Rfc.toByte oid 4).length = 4 := toByte_length _ _
  rw [g.pk_eq] at d2
  have hpkr := hpk.right
  rw [l4] at hpkr
  have hv : Valid m mbuf (p.sig_bytes + M.length) := hm
  obtain ⟨C0, C1, hC0, hC1, hX0⟩ := hv.cells2
  obtain ⟨J, X, hJ, _, hX, hf⟩ := coreSignOpen_of hH hHl g (m := m) (mbuf := mbuf) (sm := sm) (pk := pk + 4) (root := k.root)
    (s := k.pubSeed) (sig := sig) (M := M) (hpkr.load (by rw [List.length_append, hr, hps]; omega)) hr hps
    (hsm.load (by rw [List.length_append, hsig])) hsig hC0 hC1 hX0 d1 (Disj.sub_left d2 4 (2 * p.n) (by omega)) hlen
  have hcall : ∀ r, coreSignOpen P p m mbuf sm (p.sig_bytes + M.length) (pk + 4) = some r →
      apiOpen P f.parseFast m mbuf l0 sm (p.sig_bytes + M.length) pk = some r := by
    intro r hr
    rw [apiOpen]
    simp only [Option.bind_eq_bind]
    rw [hoid, Option.bind_some]
    simp only [hp]
    exact hr
  refine ⟨X, ?_, ?_, ?_⟩
  · have := storeC_onlyIn hX
    have hl : ∀ c : Prop, [Decidable c] → (((if c then M else List.replicate M.length (0 : UInt8)).map some ++ J)).length =
        p.sig_bytes + M.length := by
      intro c _
      split <;> simp [hJ] <;> omega
    rwa [hl] at this
  · intro h
    unfold Rfc.Suite.verify at h
    rw [if_pos h] at hX hf
    exact ⟨hcall _ hf, Holds.of_load (load_storeC (A := []) hX)⟩
  · intro h
    unfold Rfc.Suite.verify at h
    rw [if_neg h] at hX hf
    exact ⟨hcall _ hf, Holds.of_load (load_storeC (A := []) hX)⟩

/-! ### Undefined behaviour -/

theorem OnlyIn.symm {m m' : Mem} {rs : List (Ptr × Nat)} (h : OnlyIn m m' rs) : OnlyIn m' m rs :=
  ⟨h.1.symm, fun b i hw => (h.2 b i hw).symm⟩

theorem bytesToUll_none {m : Mem} {q : Ptr} {k : Nat} (h : load m q 1 = none) : bytesToUll m q (k + 1) = none := by
  have e : q + 0 = q := rfl
  rw [bytesToUll, bytesToUllLoop]
  simp only [Option.bind_eq_bind]
  rw [e, h, Option.bind_none]

/-- Before the first random byte the fast key generation reads an entry of the secret-key buffer that nothing has written. -/
theorem keypair_reads_sk (P : Prims) (hp : f.parseFast oid = some p) (m : Mem) (pk sk : Ptr)
    (hpk : Room m pk 4) (hsk : Room m sk 4) (hd : Apart pk 4 sk 4)
    (hd2 : Apart pk 4 (sk + (4 + p.index_bytes + 4 * p.n + (p.tree_height + 1) * p.n)) 1)
    (hu : load m (sk + (4 + p.index_bytes + 4 * p.n + (p.tree_height + 1) * p.n)) 1 = none) :
    ∃ a2, oidWriteLoop pk sk oid oidLen 0 m = some a2 ∧ deserializeL p a2 (sk + 4) = none := by
  obtain ⟨g, hskb, ho8, _, _, _⟩ := parseFast_good hp
  obtain ⟨H, hH, hHl⟩ := Family.hashFast (P := P) hp
  have F0 := fast0_of hp hH
  have hn16 := (fits_of_good g).n_lt
  have hib : p.index_bytes ≤ 8 := g.idx_le
  have hdp := g.d_pos
  have hd64 : p.d ≤ 64 := by
    have h1 := g.height
    have h2 := g.fh_lt
    have h3 := Nat.le_mul_of_pos_left p.d g.th_pos
    omega
  have h1632 : (2 : Nat) ^ 16 * 4 + 8 < 2 ^ 32 := by norm_num
  obtain ⟨a1, a2, e1, e2, e3⟩ := oidWriteLoop_of (oid := oid) (pk := pk) (sk := sk) hpk hsk hd
  have o4 : (oidBytes oid).length = 4 := by rw [oidBytes_eq, toByte_length]
  have q1 := store_onlyIn e1
  have q2 := store_onlyIn e2
  rw [o4] at q1 q2
  have hn : load a2 (sk + (4 + p.index_bytes + 4 * p.n + (p.tree_height + 1) * p.n)) 1 = none := by
    by_contra hc
    obtain ⟨x, hx⟩ := Option.ne_none_iff_exists'.mp hc
    have := keepLoad q1.symm (keepLoad q2.symm hx ?_) ?_
    · rw [hu] at this; cases this
    · intro r hr
      simp only [List.mem_singleton] at hr
      subst hr
      right; right; simp only [add_off]; omega
    · intro r hr
      simp only [List.mem_singleton] at hr
      subst hr
      exact Disj.symm hd2
  have hds : deserializeL p a2 (sk + 4) = none := by
    have e : usub (w32 (2 * p.d)) 1 = (2 * p.d - 2) + 1 := by
      rw [w32_lt (by omega), usub_eq (by omega) (by omega)]; omega
    rw [deserializeL, e, w32_lt (x := 4 * p.n) (by omega), w32_lt (by omega), readStatesL, readStateL]
    simp only [Option.bind_eq_bind]
    have hth := g.th_lt
    rw [w32_lt (x := p.tree_height + 1) (by omega), F0.mul_lt (Nat.le_refl _)]
    have e4 : 4 + (p.index_bytes + 4 * p.n + (p.tree_height + 1) * p.n) =
        4 + p.index_bytes + 4 * p.n + (p.tree_height + 1) * p.n := by rw [Nat.add_assoc 4, Nat.add_assoc 4]
    rw [add_add, add_add, e4, bytesToUll_none (k := 3) hn]
    rfl
  exact ⟨a2, e3, hds⟩

/-- **C84 (undefined: uninitialised secret-key buffer).**  Key generation of the fast implementation reads the secret-key
buffer before it has written it: with one byte of the stored stack offset unreadable (uninitialised) it is undefined.
Key generation of the simple implementation (C83) is defined whatever the buffers hold. -/
theorem C84_undefined_keypair (hp : f.parseFast oid = some p) (m : Mem) (pk sk : Ptr) (rnd : Params → Bytes)
    (hpk : Room m pk 4) (hsk : Room m sk 4) (hd : Apart pk 4 sk 4)
    (hd2 : Apart pk 4 (sk + (4 + p.index_bytes + 4 * p.n + (p.tree_height + 1) * p.n)) 1)
    (hu : load m (sk + (4 + p.index_bytes + 4 * p.n + (p.tree_height + 1) * p.n)) 1 = none) :
    apiKeypairFastL P f m pk sk oid rnd = none := by
  obtain ⟨a2, e3, hds⟩ := keypair_reads_sk P hp m pk sk hpk hsk hd hd2 hu
  rw [apiKeypairFastL, hp]
  simp only [Option.bind_eq_bind]
  rw [e3, Option.bind_some]
  have hk : fastKeypairL P f p a2 (pk + 4) (sk + 4) (rnd p) = none := by
    cases f with
    | xmss =>
      show fastXmssKeypairL P p a2 (pk + 4) (sk + 4) (rnd p) = none
      rw [fastXmssKeypairL, hds]
      split <;> rfl
    | xmssmt =>
      show fastXmssmtKeypairL P p a2 (pk + 4) (sk + 4) (rnd p) = none
      rw [fastXmssmtKeypairL, hds]
      split <;> rfl
  have : oidLen = 4 := rfl
  rw [this, hk, Option.bind_none]

/-! ### Instances -/

/-- The memory of a program with separate buffers for the public key (uninitialised), the secret key (zeroed), the
signed message (zeroed) and a message. -/
def freshFast (p : Params) (M : Bytes) : Mem :=
  [List.replicate (4 + p.pk_bytes) none, (List.replicate (4 + p.sk_bytes) 0).map some,
    (List.replicate (p.sig_bytes + M.length) 0).map some, M.map some]

theorem holds_block {m : Mem} {b : Nat} {x : Bytes} (h : m[b]? = some (x.map some)) : Holds m ⟨b, 0⟩ x := by
  rw [holds_iff, load]
  simp only [Option.bind_eq_bind]
  rw [h, Option.bind_some]
  exact read_full rfl

/-- Key generation in `freshFast` and a first signature on the message "abc", for any parameter set using the toy hash. -/
theorem toy_first (hp : f.parseFast oid = some p) (hH : Xmss.coreHash Toy.prims p.func p.n = some Toy.hash) (h32 : p.n = 32)
    (hfh : 10 ≤ p.full_height) (h40 : p.full_height ≠ 40) (hsb : p.sig_bytes + 3 < 2 ^ 64) (hcov : p.d ≤ p.tree_height / 2 + 2) :
    ∃ (k : Key) (m1 m2 : Mem) (o : FastOut),
      apiKeypairFastL Toy.prims f (freshFast p [97, 98, 99]) ⟨0, 0⟩ ⟨1, 0⟩ oid (fun _ => List.replicate 96 7) = some (0, m1) ∧
      Holds m1 ⟨0, 0⟩ (k.pk oid) ∧
      apiSignFastL Toy.prims f m1 ⟨1, 0⟩ ⟨2, 0⟩ 0 ⟨3, 0⟩ 3 = some (0, p.sig_bytes + 3, m2) ∧
      o.sm = (suiteOf p Toy.hash).sign k.skSeed k.skPrf k.root k.pubSeed 0 [97, 98, 99] ++ [97, 98, 99] ∧ Holds m2 ⟨2, 0⟩ o.sm := by
  have r3 : Holds (freshFast p [97, 98, 99]) ⟨3, 0⟩ [97, 98, 99] := holds_block rfl
  have r2 : Holds (freshFast p [97, 98, 99]) ⟨2, 0⟩ (List.replicate (p.sig_bytes + 3) 0) := holds_block rfl
  obtain ⟨k, key, m1, hv, hh, _, e1, e2, e3, hl, e4, hist⟩ := C84_use (P := Toy.prims) hp hH (freshFast p [97, 98, 99])
    ⟨0, 0⟩ ⟨1, 0⟩ (List.replicate (4 + p.sk_bytes) 0) (by simp) (room_fresh rfl (by simp)) (holds_block rfl) (apart_blk (by omega))
    (fun _ => List.replicate 96 7) (by rw [List.length_replicate, h32])
  have keep : ∀ {x : Bytes} {b : Nat}, b ≠ 0 → b ≠ 1 → Holds (freshFast p [97, 98, 99]) ⟨b, 0⟩ x → Holds m1 ⟨b, 0⟩ x := by
    intro x b h0 h1 h
    refine h.keep e4 ?_
    intro r hr
    simp only [List.mem_cons, List.not_mem_nil, or_false] at hr
    rcases hr with rfl | rfl
    · exact apart_blk h0
    · exact apart_blk h1
  let s : FastStep := ⟨m1, ⟨2, 0⟩, 0, ⟨3, 0⟩, List.replicate (p.sig_bytes + 3) 0, [97, 98, 99]⟩
  have hok : s.Ok p ⟨1, 0⟩ := by
    refine ⟨keep (by omega) (by omega) r2, keep (by omega) (by omega) r3, ?_, apart_blk (by omega), apart_blk (by omega), apart_blk (by omega), ?_⟩
    · show p.sig_bytes + 3 ≤ (List.replicate (p.sig_bytes + 3) (0 : UInt8)).length
      rw [List.length_replicate]
    · show p.sig_bytes + 3 < 2 ^ 64
      exact hsb
  have hread : ∀ r l m', apiSignFastL Toy.prims f s.before ⟨1, 0⟩ s.sm s.smlen0 s.msg s.M.length = some (r, l, m') →
      ∃ key', key'.length = key.length ∧ Holds m' ⟨1, 0⟩ key' ∧ FastHistory Toy.prims f p ⟨1, 0⟩ key' [] := by
    intro r l m' h
    obtain ⟨_, _, _, _, sk, hbl, hk, hi⟩ := fast_history (P := Toy.prims) hp hH (List.replicate (4 + p.pk_bytes) 0)
      (List.replicate (4 + p.sk_bytes) 0) (by simp) (by simp) (fun _ => List.replicate 96 7) (by rw [List.length_replicate, h32])
    obtain ⟨m1', x1, _, x3, _, x6⟩ := C84_keypair hp (freshFast p [97, 98, 99]) ⟨0, 0⟩ ⟨1, 0⟩ _ (by simp)
      (room_fresh rfl (by simp)) (holds_block rfl) (apart_blk (by omega)) (fun _ => List.replicate 96 7)
      (by rw [List.length_replicate, h32]) _ (by simp) _ _ _ hk
    rw [e1] at x1
    simp only [Option.some.injEq, Prod.mk.injEq, true_and] at x1
    subst x1
    have l4 : (Rfc.toByte oid 4).length = 4 := toByte_length _ _
    have ek : key = Rfc.toByte oid 4 ++ sk := e3.unique x3 (by rw [hl, List.length_append, l4, hbl])
    obtain ⟨os, y1, y2, y3⟩ := hi [⟨s.out0, 0, s.M⟩] (by
      intro c hc
      rw [List.mem_singleton] at hc
      subst hc
      exact hok.size) ⟨fun h => absurd h h40, Or.inl hcov⟩
    rw [← ek, signAllFast] at y1
    simp only [Option.bind_eq_bind] at y1
    obtain ⟨o, z1, _⟩ := Option.bind_eq_some_iff.mp y1
    obtain ⟨m2, w1, w2, w3, _⟩ := C84_sign_refines (P := Toy.prims) hp m1 ⟨1, 0⟩ ⟨2, 0⟩ ⟨3, 0⟩ 0 key s.out0 s.M o hl
      (by rw [ek]; exact List.take_left' l4) hok.size (fun h => by rw [ek]; exact x6 h) z1 e3 hok.out hok.msg (by rw [hl]; exact hok.apart) hok.apart1
      (by rw [hl]; exact hok.apart2) hok.len
    have h' : apiSignFastL Toy.prims f m1 ⟨1, 0⟩ ⟨2, 0⟩ 0 ⟨3, 0⟩ s.M.length = some (r, l, m') := h
    rw [w1] at h'
    simp only [Option.some.injEq, Prod.mk.injEq] at h'
    obtain ⟨_, _, rfl⟩ := h'
    exact ⟨_, w3, w2, trivial⟩
  obtain ⟨o, m2, g1, g2, _, g4⟩ := hist [s] (by
    intro s' hs'
    rw [List.mem_singleton] at hs'
    subst hs'
    exact hok) ⟨e3, hread⟩ ⟨fun h => absurd h h40, Or.inl hcov⟩ 0 s rfl
  obtain ⟨a1, a2, a3, _⟩ := g2.ok (by
    have := Nat.pow_le_pow_right (show 0 < 2 by omega) hfh
    omega)
  refine ⟨k, m1, m2, o, e1, e2, ?_, ?_, g4⟩
  · rw [a1, a2] at g1; exact g1
  · rw [a3]
    show _ ++ ([97, 98, 99] : Bytes) ++ (List.replicate (p.sig_bytes + 3) (0 : UInt8)).drop (p.sig_bytes + 3) = _
    rw [List.drop_of_length_le (by rw [List.length_replicate]), List.append_nil]

-- XMSS-SHA2_10_256 with the toy hash.
example : ∃ (p : Params) (k : Key) (m1 m2 : Mem) (o : FastOut), Family.xmss.parseFast 1 = some p ∧
    apiKeypairFastL Toy.prims .xmss (freshFast p [97, 98, 99]) ⟨0, 0⟩ ⟨1, 0⟩ 1 (fun _ => List.replicate 96 7) = some (0, m1) ∧
    Holds m1 ⟨0, 0⟩ (k.pk 1) ∧
    apiSignFastL Toy.prims .xmss m1 ⟨1, 0⟩ ⟨2, 0⟩ 0 ⟨3, 0⟩ 3 = some (0, p.sig_bytes + 3, m2) ∧
    o.sm = (suiteOf p Toy.hash).sign k.skSeed k.skPrf k.root k.pubSeed 0 [97, 98, 99] ++ [97, 98, 99] ∧ Holds m2 ⟨2, 0⟩ o.sm := by
  obtain ⟨p, hp⟩ : ∃ p, Family.xmss.parseFast 1 = some p := ⟨_, rfl⟩
  have hn : p.n = 32 ∧ p.full_height = 10 ∧ p.sig_bytes = 2500 ∧ p.d = 1 ∧ p.tree_height = 10 := by
    have : (Family.xmss.parseFast 1).map (fun p => (p.n, p.full_height, p.sig_bytes, p.d, p.tree_height)) =
        some (32, 10, 2500, 1, 10) := by decide +kernel
    rw [hp] at this
    simpa using this
  obtain ⟨H, hH, _⟩ := Family.hashFast (P := Toy.prims) hp
  have hH' : H = Toy.hash := by
    have : (Family.xmss.parseFast 1).bind (fun p => Xmss.coreHash Toy.prims p.func p.n) = some Toy.hash := rfl
    rw [hp, Option.bind_some, hH] at this
    exact Option.some.inj this
  subst hH'
  obtain ⟨h1, h2, h3, h4, h5⟩ := hn
  obtain ⟨k, m1, m2, o, h⟩ := toy_first hp hH h1 (by omega) (by omega) (by rw [h3]; norm_num) (by rw [h4, h5]; omega)
  exact ⟨p, k, m1, m2, o, rfl.trans hp, h⟩

-- XMSSMT-SHA2_20/2_256 with the toy hash.
example : ∃ (p : Params) (k : Key) (m1 m2 : Mem) (o : FastOut), Family.xmssmt.parseFast 1 = some p ∧
    apiKeypairFastL Toy.prims .xmssmt (freshFast p [97, 98, 99]) ⟨0, 0⟩ ⟨1, 0⟩ 1 (fun _ => List.replicate 96 7) = some (0, m1) ∧
    Holds m1 ⟨0, 0⟩ (k.pk 1) ∧
    apiSignFastL Toy.prims .xmssmt m1 ⟨1, 0⟩ ⟨2, 0⟩ 0 ⟨3, 0⟩ 3 = some (0, p.sig_bytes + 3, m2) ∧
    o.sm = (suiteOf p Toy.hash).sign k.skSeed k.skPrf k.root k.pubSeed 0 [97, 98, 99] ++ [97, 98, 99] ∧ Holds m2 ⟨2, 0⟩ o.sm := by
  obtain ⟨p, hp⟩ : ∃ p, Family.xmssmt.parseFast 1 = some p := ⟨_, rfl⟩
  have hn : p.n = 32 ∧ p.full_height = 20 ∧ p.sig_bytes = 4963 ∧ p.d = 2 ∧ p.tree_height = 10 := by
    have : (Family.xmssmt.parseFast 1).map (fun p => (p.n, p.full_height, p.sig_bytes, p.d, p.tree_height)) =
        some (32, 20, 4963, 2, 10) := by decide +kernel
    rw [hp] at this
    simpa using this
  obtain ⟨H, hH, _⟩ := Family.hashFast (P := Toy.prims) hp
  have hH' : H = Toy.hash := by
    have : (Family.xmssmt.parseFast 1).bind (fun p => Xmss.coreHash Toy.prims p.func p.n) = some Toy.hash := rfl
    rw [hp, Option.bind_some, hH] at this
    exact Option.some.inj this
  subst hH'
  obtain ⟨h1, h2, h3, h4, h5⟩ := hn
  obtain ⟨k, m1, m2, o, h⟩ := toy_first hp hH h1 (by omega) (by omega) (by rw [h3]; norm_num) (by rw [h4, h5]; omega)
  exact ⟨p, k, m1, m2, o, rfl.trans hp, h⟩

-- With an uninitialised secret-key buffer key generation is undefined.
example : ∃ p, Family.xmss.parseFast 1 = some p ∧ ∀ M, apiKeypairFastL Toy.prims .xmss
    [List.replicate (4 + p.pk_bytes) none, List.replicate (4 + p.sk_bytes) none, M] ⟨0, 0⟩ ⟨1, 0⟩ 1
      (fun _ => List.replicate 96 7) = none := by
  obtain ⟨p, hp⟩ : ∃ p, Family.xmss.parseFast 1 = some p := ⟨_, rfl⟩
  refine ⟨p, rfl.trans hp, fun M => ?_⟩
  refine C84_undefined_keypair hp _ _ _ _ ⟨_, rfl, by simp⟩ ⟨_, rfl, by simp⟩ (apart_blk (by omega)) (apart_blk (by simp)) ?_
  have hn : p.n = 32 ∧ p.index_bytes = 4 ∧ p.tree_height = 10 ∧ p.sk_bytes = 1373 := by
    have : (Family.xmss.parseFast 1).map (fun p => (p.n, p.index_bytes, p.tree_height, p.sk_bytes)) = some (32, 4, 10, 1373) := by decide +kernel
    rw [hp] at this
    simpa using this
  rw [hn.1, hn.2.1, hn.2.2.1, hn.2.2.2]
  have : Block.read (List.replicate (4 + 1373) none) (0 + (4 + 4 + 4 * 32 + (10 + 1) * 32)) 1 = none := by decide +kernel
  rw [load]
  simp only [Option.bind_eq_bind, add_blk, add_off]
  rw [List.getElem?_cons_succ, List.getElem?_cons_zero, Option.bind_some]
  exact this

end Xmss.Low
