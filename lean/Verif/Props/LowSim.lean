import Verif.Props.Low
import Verif.Props.History
/-
C83, continued: the first model (byte strings in, byte strings out) is what the pointer-level model does with the contents
of the caller's buffers, so that every property proved about the first model holds of the pointer-level one; and the
calls that are undefined behaviour.
-/
namespace Xmss.Low

variable {P : Prims} {f : Family} {oid : Nat} {p : Params} {H : Bytes → Bytes}

theorem Holds.room {m : Mem} {q : Ptr} {x : Bytes} (h : Holds m q x) {len : Nat} (hl : len ≤ x.length) : Room m q len := by
  obtain ⟨o, h1, h2⟩ := h.1
  exact ⟨o, h1, by omega⟩

theorem Apart.mono {q r : Ptr} {a b a' b' : Nat} (h : Apart q a r b) (ha : a' ≤ a) (hb : b' ≤ b) : Apart q a' r b' :=
  Disj.mono (q := q) (r := r) h ha hb

/-- Bytes behind the range that a call may write. -/
theorem Holds.tail {m m' : Mem} {q : Ptr} {x : Bytes} {n : Nat} {rs : List (Ptr × Nat)} (h : Holds m q x) (ho : OnlyIn m m' rs)
    (hn : n ≤ x.length) (hd : ∀ r ∈ rs, Apart (q + n) (x.length - n) r.1 r.2) : Holds m' (q + n) (x.drop n) := by
  have h' : Holds m q (x.take n ++ x.drop n) := by rw [List.take_append_drop]; exact h
  have := h'.right
  rw [List.length_take, Nat.min_eq_left hn] at this
  exact this.keep ho (by simpa using hd)

/-- **C83 (signing, refinement).**  A sign call on buffers with given contents does to memory what the first model does
to the contents. -/
theorem C83_sign_refines (hp : f.parse oid = some p) (m : Mem) (sk sm msg : Ptr) (l0 : Nat) (sk0 sm0 M : Bytes)
    (hskl : sk0.length = 4 + p.sk_bytes) (hoid : sk0.take 4 = Rfc.toByte oid 4) (hsml : p.sig_bytes + M.length ≤ sm0.length)
    (hsk : Holds m sk sk0) (hsm : Holds m sm sm0) (hM : Holds m msg M) (hd : Apart sk sk0.length sm sm0.length)
    (hdm : Apart msg M.length (sm + p.sig_bytes) M.length) (hlen : p.sig_bytes + M.length < 2 ^ 64) :
    ∃ o m', f.sign P sk0 sm0 l0 M = some o ∧ apiSign P f.parse m sk sm l0 msg M.length = some (o.ret, o.smlen, m') ∧
      Holds m' sk o.sk ∧ Holds m' sm o.sm ∧ OnlyIn m m' [(sk, sk0.length), (sm, p.sig_bytes + M.length)] := by
  obtain ⟨g, hskb, ho, H, hH⟩ := Family.facts (P := P) hp
  have hHl := Family.hash_length hp hH
  obtain ⟨k, hk, idx, hi, rfl⟩ := Key.sk_surj hskb sk0 hskl hoid
  have hpos : 0 < 2 ^ p.full_height := Nat.two_pow_pos _
  rw [hskl] at hd ⊢
  obtain ⟨m', e1, e2, e3, e4, e5, e6⟩ := C83_sign hp hH k hk idx hi m sk sm msg l0 M hsk (hsm.room hsml) hM
    (hd.mono (Nat.le_refl _) hsml) hdm hlen
  refine ⟨_, m', sign_call hp hH k hk idx hi sm0 l0 M hsml, e1, e2, ?_, ?_⟩
  · dsimp only
    have hskd : ∀ n, n ≤ p.sk_bytes → Apart (sm + (p.sig_bytes + M.length)) (sm0.length - (p.sig_bytes + M.length)) (sk + 4) n := by
      intro n hn
      have := Disj.sub_left (q := sm) (r := sk) (Disj.symm hd) (p.sig_bytes + M.length) (sm0.length - (p.sig_bytes + M.length)) (by omega)
      exact Disj.sub this 4 n (by omega)
    have hbeh : ∀ n k, n + k = p.sig_bytes + M.length →
        Apart (sm + (p.sig_bytes + M.length)) (sm0.length - (p.sig_bytes + M.length)) (sm + n) k := by
      intro n k h; right; right; simp only [add_off]; omega
    have slen : ((suiteOf p H).sign k.skSeed k.skPrf k.root k.pubSeed idx M).length = p.sig_bytes := sign_length g hHl _ _ _ _ _ _
    have join : ∀ a : Bytes, a.length = p.sig_bytes → Holds m' sm a →
        Holds m' (sm + (p.sig_bytes + M.length)) (sm0.drop (p.sig_bytes + M.length)) →
        Holds m' sm (a ++ M ++ sm0.drop (p.sig_bytes + M.length)) := by
      intro a ha h1 h2
      refine Holds.append (h1.append (by rw [ha]; exact e3)) ?_
      rw [List.length_append, ha]; exact h2
    by_cases c1 : idx < 2 ^ p.full_height - 1
    · obtain ⟨s1, s2⟩ := e4 c1
      rw [if_pos c1]
      refine join _ slen s1 (hsm.tail s2 hsml ?_)
      intro r hr
      simp only [List.mem_cons, List.not_mem_nil, or_false] at hr
      rcases hr with rfl | rfl
      · exact hskd _ (by omega)
      · exact hbeh 0 _ (by omega)
    · rw [if_neg c1]
      by_cases c2 : idx = 2 ^ p.full_height - 1
      · obtain ⟨s1, s2⟩ := e5 c2
        rw [if_pos c2]
        refine join _ ?_ s1 (hsm.tail s2 hsml ?_)
        · have := g.prefix_fits
          have := g.sig_eq'
          simp only [List.length_append, List.length_replicate, List.length_drop, sign_length g hHl]; omega
        · intro r hr
          simp only [List.mem_cons, List.not_mem_nil, or_false] at hr
          rcases hr with rfl | rfl
          · exact hskd _ (by omega)
          · exact hbeh 0 _ (by omega)
      · have s2 := e6 (by omega)
        rw [if_neg c2]
        refine join _ (by simp; omega) ?_ (hsm.tail s2 hsml ?_)
        · have : Holds m sm (sm0.take p.sig_bytes) :=
            Holds.left (y := sm0.drop p.sig_bytes) (by rw [List.take_append_drop]; exact hsm)
          refine this.keep s2 ?_
          intro r hr
          simp only [List.mem_cons, List.not_mem_nil, or_false] at hr
          have hl : (sm0.take p.sig_bytes).length = p.sig_bytes := by simp; omega
          rw [hl]
          rcases hr with rfl | rfl
          · exact Disj.sub (Disj.mono (q := sm) (r := sk) (Disj.symm hd) (by omega) (Nat.le_refl _)) 4 _ (by omega)
          · right; left; exact Nat.le_refl _
        · intro r hr
          simp only [List.mem_cons, List.not_mem_nil, or_false] at hr
          rcases hr with rfl | rfl
          · exact hskd _ (by omega)
          · exact hbeh _ _ rfl
  · have hw : ∀ (n o l x i : Nat), n ≤ p.sk_bytes → o + l = p.sig_bytes + M.length →
        Within [(sk + 4, n), (sm + o, l)] x i → Within [(sk, 4 + p.sk_bytes), (sm, p.sig_bytes + M.length)] x i := by
      intro n o l x i h1 h2 h
      rw [within_cons, within_one] at h ⊢
      simp only [add_blk, add_off] at h
      omega
    by_cases c1 : idx < 2 ^ p.full_height - 1
    · exact (e4 c1).2.mono fun x i h => hw _ 0 _ x i (by omega) (by omega) h
    · by_cases c2 : idx = 2 ^ p.full_height - 1
      · exact (e5 c2).2.mono fun x i h => hw _ 0 _ x i (by omega) (by omega) h
      · exact (e6 (by omega)).mono fun x i h => hw _ p.sig_bytes _ x i (by omega) rfl h

/-- **C83 (verification, refinement).**  An open call on buffers with given contents does to memory what the first model
does to the contents. -/
theorem C83_open_refines (hp : f.parse oid = some p) (k : Key) (hr : k.root.length = p.n) (hps : k.pubSeed.length = p.n)
    (m : Mem) (mbuf sm pk : Ptr) (l0 : Nat) (m0 sig M : Bytes) (hsig : sig.length = p.sig_bytes)
    (hml : p.sig_bytes + M.length ≤ m0.length)
    (hpk : Holds m pk (k.pk oid)) (hsm : Holds m sm (sig ++ M)) (hm : Holds m mbuf m0)
    (d1 : Apart sm (p.sig_bytes + M.length) mbuf (p.sig_bytes + M.length))
    (d2 : Apart pk (4 + p.pk_bytes) mbuf (p.sig_bytes + M.length)) (hlen : p.sig_bytes + M.length < 2 ^ 64) :
    ∃ o m', f.signOpen P m0 l0 (sig ++ M) (p.sig_bytes + M.length) (k.pk oid) = some o ∧
      apiOpen P f.parse m mbuf l0 sm (p.sig_bytes + M.length) pk = some (o.ret, o.mlen, m') ∧
      Holds m' mbuf o.m ∧ OnlyIn m m' [(mbuf, p.sig_bytes + M.length)] := by
  obtain ⟨g, hskb, ho, H, hH⟩ := Family.facts (P := P) hp
  have hHl := Family.hash_length hp hH
  have l4 : (Rfc.toByte oid 4).length = 4 := toByte_length _ _
  have hoid : oidReadLoop m pk oidLen 0 0 = some oid := oidRead_key hpk (by omega)
  rw [g.pk_eq] at d2
  have hpkr := hpk.right
  rw [l4] at hpkr
  -- the first model
  obtain ⟨junk, hj, hjj, hc⟩ := coreSignOpen_eq g hHl k.root k.pubSeed [] sig M [] (m0.take (p.sig_bytes + M.length))
    (m0.drop (p.sig_bytes + M.length)) hr hps hsig hlen (by simp; omega)
  rw [List.append_nil, List.append_nil, List.take_append_drop] at hc
  have t1 : ∀ x : Bytes, (Rfc.toByte oid 4 ++ x).drop oidLen = x := fun x => List.drop_left' (toByte_length _ _)
  have hfirst : f.signOpen P m0 l0 (sig ++ M) (p.sig_bytes + M.length) (k.pk oid) =
      Xmss.coreSignOpen H p m0 (sig ++ M) (p.sig_bytes + M.length) (k.root ++ k.pubSeed) := by
    rw [Family.signOpen_eq, Xmss.apiOpen, Key.pk, readOid_toByte (by omega)]
    simp only [Option.bind_eq_bind, Option.bind_some, hp, hH, t1]
  rw [hfirst, hc]
  -- the second
  have hX0 : storeC m mbuf ((m0.take p.sig_bytes).map some ++ ((m0.drop p.sig_bytes).take M.length).map some) = some m := by
    rw [← List.map_append, storeC_map]
    refine store_load (len := p.sig_bytes + M.length) ?_
    have : Holds m mbuf (m0.take (p.sig_bytes + M.length)) :=
      Holds.left (y := m0.drop (p.sig_bytes + M.length)) (by rw [List.take_append_drop]; exact hm)
    rw [← List.take_add]
    exact this.load (by simp; omega)
  obtain ⟨J, X, hJ, hJJ, hX, hf⟩ := coreSignOpen_of hH hHl g (m := m) (mbuf := mbuf) (sm := sm) (pk := pk + 4) (root := k.root)
    (s := k.pubSeed) (sig := sig) (M := M) (hpkr.load (by rw [List.length_append, hr, hps]; omega)) hr hps
    (hsm.load (by rw [List.length_append, hsig])) hsig (by simp; omega) (by simp; omega) hX0 d1
    (Disj.sub_left d2 4 (2 * p.n) (by omega)) hlen
  have hJ2 : J = ((junk ++ M).drop M.length).map some := by
    rw [hJJ, hjj, ← List.map_take, ← List.map_append, ← List.map_drop]
    congr 2
    rw [List.take_take, List.take_take, Nat.min_eq_left (by omega), Nat.min_eq_left (by omega)]
    simp only [List.append_assoc]
  have hcall : apiOpen P f.parse m mbuf l0 sm (p.sig_bytes + M.length) pk =
      coreSignOpen P p m mbuf sm (p.sig_bytes + M.length) (pk + 4) := by
    rw [apiOpen]
    simp only [Option.bind_eq_bind]
    rw [hoid, Option.bind_some]
    simp only [hp]
    rfl
  have hl : ∀ c : Prop, [Decidable c] → (((if c then M else List.replicate M.length (0 : UInt8)).map some ++ J)).length =
      p.sig_bytes + M.length := by
    intro c _
    split <;> simp [hJ] <;> omega
  have ho := storeC_onlyIn hX
  rw [hl] at ho
  have htail : Holds X (mbuf + (p.sig_bytes + M.length)) (m0.drop (p.sig_bytes + M.length)) := by
    refine hm.tail ho hml ?_
    intro r hr
    rw [List.mem_singleton] at hr
    subst hr
    right; right; exact Nat.le_refl _
  rw [hJ2, ← List.map_append, storeC_map] at hX
  have hh := store_holds hX
  refine ⟨_, X, rfl, ?_, ?_, ho⟩
  · rw [hcall, hf]
    split <;> rfl
  · have hl2 : ∀ c : Prop, [Decidable c] → ((if c then M else List.replicate M.length (0 : UInt8)) ++
        (junk ++ M).drop M.length).length = p.sig_bytes + M.length := by
      intro c _
      split <;> simp [hj] <;> omega
    have := hh.append (y := m0.drop (p.sig_bytes + M.length)) (by rw [hl2]; exact htail)
    split
    · rename_i c; rw [if_pos c] at this; exact this
    · rename_i c; rw [if_neg c] at this; exact this

/-- **C83 (key generation, refinement).** -/
theorem C83_keypair_refines (hp : f.parse oid = some p) (m : Mem) (pk sk : Ptr) (pk0 sk0 : Bytes)
    (hpkl : pk0.length = 4 + p.pk_bytes) (hskl : sk0.length = 4 + p.sk_bytes) (hpk : Holds m pk pk0) (hsk : Holds m sk sk0)
    (hd : Apart pk pk0.length sk sk0.length) (seed : Nat → Bytes) (hs : (seed p.n).length = 3 * p.n) :
    ∃ r pk' sk' m', f.keypair P pk0 sk0 oid seed = some (r, pk', sk') ∧
      apiKeypair P f.parse m pk sk oid (fun q => seed q.n) = some (r, m') ∧ Holds m' pk pk' ∧ Holds m' sk sk' ∧
      OnlyIn m m' [(pk, pk0.length), (sk, sk0.length)] := by
  obtain ⟨g, hskb, ho, H, hH⟩ := Family.facts (P := P) hp
  rw [hpkl, hskl] at hd ⊢
  have h3 : seed p.n = (seed p.n).take p.n ++ ((seed p.n).drop p.n).take p.n ++ (seed p.n).drop (p.n + p.n) := by
    have := split3 (seed p.n) p.n p.n
    exact this
  have l1 : ((seed p.n).take p.n).length = p.n := by simp; omega
  have l2 : (((seed p.n).drop p.n).take p.n).length = p.n := by simp; omega
  have l3 : ((seed p.n).drop (p.n + p.n)).length = p.n := by simp; omega
  obtain ⟨k, m', k1, k2, k3, k4, k5, k6, k7, k8, k9⟩ := C83_keypair hp hH m pk sk (hpk.room (by omega)) (hsk.room (by omega)) hd
    (fun q => seed q.n) _ _ _ h3 l1 l2 l3
  obtain ⟨k', j1, j2, j3, j4, j5, j6, _⟩ := C30_key_layout hp hH pk0 sk0 hpkl hskl seed _ _ _ h3 l1 l2 l3
  have e : k' = k := by
    obtain ⟨a, b, c, d⟩ := k
    obtain ⟨a', b', c', d'⟩ := k'
    unfold Key.Honest at k4 j4
    simp only at *
    subst k1 k2 k3 j1 j2 j3
    rw [k4, j4]
  subst e
  exact ⟨0, k'.pk oid, k'.sk p oid 0, m', j6, k6, k7, k8, k9⟩

/-! ### Histories -/

/-- One sign call of a program: memory before and after it, the arguments, the contents of the message and of the output
buffer before the call, and the results. -/
structure SignStep where
  before : Mem
  sm : Ptr
  smlen0 : Nat
  msg : Ptr
  out0 : Bytes
  M : Bytes
  ret : Int
  smlen : Nat
  after : Mem

/-- The call was made with proper buffers and had these results. -/
structure SignStep.Ok (P : Prims) (f : Family) (p : Params) (sk : Ptr) (s : SignStep) : Prop where
  out : Holds s.before s.sm s.out0
  msg : Holds s.before s.msg s.M
  size : p.sig_bytes + s.M.length ≤ s.out0.length
  apart : Apart sk (4 + p.sk_bytes) s.sm s.out0.length
  apart' : Apart s.msg s.M.length (s.sm + p.sig_bytes) s.M.length
  len : p.sig_bytes + s.M.length < 2 ^ 64
  call : apiSign P f.parse s.before sk s.sm s.smlen0 s.msg s.M.length = some (s.ret, s.smlen, s.after)

/-- A history of sign calls with the key at `sk`, which initially is `key`: between the calls the program may change
memory in any way (also reuse buffers), except for the key. -/
def SignHistory (P : Prims) (f : Family) (p : Params) (sk : Ptr) : Bytes → List SignStep → Prop
  | _, [] => True
  | key, s :: ss => Holds s.before sk key ∧ s.Ok P f p sk ∧
      ∃ key', key'.length = key.length ∧ Holds s.after sk key' ∧ SignHistory P f p sk key' ss

theorem Holds.unique {m : Mem} {q : Ptr} {x y : Bytes} (hx : Holds m q x) (hy : Holds m q y) (hl : x.length = y.length) : x = y := by
  have h1 := hx.load hl
  rw [hy.load rfl] at h1
  exact (Option.some.inj h1).symm

/-- **C83 (histories).**  Every history of sign calls at the pointer level is one of the first model: same return values,
lengths, key bytes and outputs, call by call.  All properties of histories (C16–C19 etc.) therefore hold of it. -/
theorem C83_history (hp : f.parse oid = some p) (sk : Ptr) : ∀ (ss : List SignStep) (key : Bytes),
    key.length = 4 + p.sk_bytes → key.take 4 = Rfc.toByte oid 4 → SignHistory P f p sk key ss →
    ∃ outs, signAll P f key (ss.map fun s => ⟨s.out0, s.smlen0, s.M⟩) = some outs ∧
      List.Forall₂ (fun s o => s.ret = o.ret ∧ s.smlen = o.smlen ∧ Holds s.after sk o.sk ∧ Holds s.after s.sm o.sm) ss outs
  | [], _, _, _, _ => ⟨[], rfl, .nil⟩
  | s :: ss, key, hl, ht, ⟨hk, hs, key', hl', hk', hrest⟩ => by
    obtain ⟨o, m', e1, e2, e3, e4, _⟩ := C83_sign_refines (P := P) hp s.before sk s.sm s.msg s.smlen0 key s.out0 s.M hl ht hs.size hk
      hs.out hs.msg (by rw [hl]; exact hs.apart) hs.apart' hs.len
    rw [hs.call] at e2
    simp only [Option.some.injEq, Prod.mk.injEq] at e2
    obtain ⟨r1, r2, rfl⟩ := e2
    obtain ⟨g, hskb, ho, H, hH⟩ := Family.facts (P := P) hp
    obtain ⟨k, hkv, idx, hi, rfl⟩ := Key.sk_surj hskb key hl ht
    have hc := sign_call hp hH k hkv idx hi s.out0 s.smlen0 s.M hs.size
    rw [e1] at hc
    have hosk : o.sk = (nextKey p idx k).sk p oid (nextIdx p idx) := by
      have := Option.some.inj hc; rw [this]
    have hol : o.sk.length = 4 + p.sk_bytes := by
      have hv := nextKey_valid hkv idx
      rw [hosk, Key.sk]
      simp only [List.length_append, toByte_length, hv.skSeed, hv.skPrf, hv.root, hv.pubSeed, hskb]; omega
    have e : key' = o.sk := hk'.unique e3 (by rw [hl', hl, hol])
    subst e
    have ht' : o.sk.take 4 = Rfc.toByte oid 4 := by rw [hosk, Key.sk, List.take_left' (toByte_length _ _)]
    obtain ⟨outs, f1, f2⟩ := C83_history hp sk ss o.sk hol ht' hrest
    refine ⟨o :: outs, ?_, .cons ⟨r1, r2, e3, e4⟩ f2⟩
    rw [List.map_cons, signAll, e1]
    simp only [Option.bind_eq_bind]
    rw [Option.bind_some, f1, Option.bind_some]

/-! ### Undefined behaviour -/

/-- **C83 (undefined: OID).**  A key whose first byte is 0x80 or more makes sign and open shift into the sign bit. -/
theorem C83_undefined_oid (m : Mem) (key sm mp : Ptr) (l0 len : Nat) (b : Bytes) (hb : b.length = 4)
    (ht : 128 ≤ (b.headD 0).toNat) (hkey : Holds m key b) :
    apiSign P f.parse m key sm l0 mp len = none ∧ apiOpen P f.parse m mp l0 sm len key = none := by
  have : oidReadLoop m key oidLen 0 0 = none := by
    obtain ⟨b0, b1, b2, b3, rfl⟩ := four hb
    have h := hkey.load (n := 4) rfl
    have l3 : load m (key + 3) 1 = some [b3] := load_sub (A := [b0, b1, b2]) (B := [b3]) (C := []) h
    have l2 : load m (key + 2) 1 = some [b2] := load_sub (A := [b0, b1]) (B := [b2]) (C := [b3]) h
    have l1 : load m (key + 1) 1 = some [b1] := load_sub (A := [b0]) (B := [b1]) (C := [b2, b3]) h
    have l0 : load m (key + 0) 1 = some [b0] := load_sub (A := []) (B := [b0]) (C := [b1, b2, b3]) h
    have ho : oidLen = 0 + 1 + 1 + 1 + 1 := rfl
    have o3 : oidLen - 0 - 1 = 3 := rfl
    have o2 : oidLen - (0 + 1) - 1 = 2 := rfl
    have o1 : oidLen - (0 + 1 + 1) - 1 = 1 := rfl
    have o0 : oidLen - (0 + 1 + 1 + 1) - 1 = 0 := rfl
    have t1 := b1.toNat_lt
    have t2 := b2.toNat_lt
    have t3 := b3.toNat_lt
    simp only [List.headD_cons] at ht
    conv_lhs => rw [ho]
    simp only [oidReadLoop, Option.bind_eq_bind]
    rw [o3, l3, Option.bind_some, List.headD_cons, if_neg (by norm_num; omega), o2, l2, Option.bind_some, List.headD_cons,
      if_neg (by norm_num; omega), o1, l1, Option.bind_some, List.headD_cons, if_neg (by norm_num; omega), o0, l0,
      Option.bind_some, List.headD_cons, if_pos (by norm_num; omega)]
  constructor
  · rw [apiSign]
    simp only [Option.bind_eq_bind]
    rw [this, Option.bind_none]
  · rw [apiOpen]
    simp only [Option.bind_eq_bind]
    rw [this, Option.bind_none]

theorem memcpy_none_of_load {m : Mem} {dst src : Ptr} {len : Nat} (h : load m src len = none) : memcpy m dst src len = none := by
  unfold memcpy
  split
  · rfl
  · simp only [Option.bind_eq_bind]
    rw [h, Option.bind_none]

theorem load_none {m : Mem} {q : Ptr} {len : Nat} (h : ¬ Room m q len) : load m q len = none := by
  cases e : load m q len with
  | none => rfl
  | some x => exact absurd (by have := (Holds.of_load e).1; rwa [load_length e] at this) h

theorem store_none {m : Mem} {q : Ptr} {x : Bytes} (h : ¬ Room m q x.length) : store m q x = none := by
  cases e : store m q x with
  | none => rfl
  | some m' =>
    obtain ⟨b, b', h1, h2, _⟩ := store_eq_some.mp e
    obtain ⟨A, X, B, rfl, h3, h4, _⟩ := write_eq_some.mp h2
    exact absurd ⟨_, h1, by simp; omega⟩ h

theorem memcpy_none_of_room {m : Mem} {dst src : Ptr} {len : Nat} (h : ¬ Room m dst len) : memcpy m dst src len = none := by
  unfold memcpy
  split
  · rfl
  · simp only [Option.bind_eq_bind]
    cases e : load m src len with
    | none => rfl
    | some x => rw [Option.bind_some]; exact store_none (by rw [load_length e]; exact h)

theorem not_room_left {m L : Mem} {q : Ptr} {len : Nat} (hq : q.blk < m.length) (h : ¬ Room m q len) : ¬ Room (m ++ L) q len := by
  rintro ⟨o, h1, h2⟩
  rw [List.getElem?_append_left hq] at h1
  exact h ⟨o, h1, h2⟩

/-- **C83 (undefined: short input).**  Verification of fewer bytes than a signature is undefined behaviour, whatever the
input is, on every machine whose objects have fewer than 2^64 bytes.  (`sm` points into an object of the caller.) -/
theorem C83_undefined_short_input (hp : f.parse oid = some p) (k : Key) (m : Mem) (mbuf sm pk : Ptr) (l0 smlen : Nat)
    (hpk : Holds m pk (k.pk oid)) (hsm : sm.blk < m.length) (h : smlen < p.sig_bytes) (hobj : ∀ o ∈ m, o.length < 2 ^ 64) :
    apiOpen P f.parse m mbuf l0 sm smlen pk = none := by
  obtain ⟨g, hskb, ho, _⟩ := Family.facts (P := P) hp
  have hsb := g.sig_lt
  have h3264 : (2 : Nat) ^ 32 < 2 ^ 64 := by norm_num
  have hoid : oidReadLoop m pk oidLen 0 0 = some oid := oidRead_key hpk (by omega)
  rw [apiOpen]
  simp only [Option.bind_eq_bind]
  rw [hoid, Option.bind_some]
  simp only [hp]
  rw [coreSignOpen, g.sig_wots]
  simp only [Option.bind_eq_bind]
  rw [alloc_pos (Nat.mul_pos g.len_pos g.n_pos), Option.bind_some]
  dsimp only
  rw [alloc_pos g.n_pos, Option.bind_some]
  dsimp only
  rw [alloc_pos g.n_pos, Option.bind_some]
  dsimp only
  cases bytesToUll _ sm p.index_bytes with
  | none => rfl
  | some idx =>
    rw [Option.bind_some, memcpy_none_of_load, Option.bind_none]
    apply load_none
    rw [List.append_assoc, List.append_assoc]
    refine not_room_left (by exact hsm) ?_
    rintro ⟨o, h1, h2⟩
    have hmem := hobj o (List.mem_of_getElem? h1)
    rw [Nat.mod_eq_of_lt (a := p.sig_bytes) (by omega)] at h2
    simp only [add_off, w64] at h2
    generalize (2 : Nat) ^ 64 = N at *
    rw [Nat.mod_eq_of_lt (by omega)] at h2
    omega

/-- **C83 (undefined: small output buffer).**  Signing needs all of `sig_bytes + mlen` bytes and verification all of `smlen`
bytes of output buffer (even when verification fails). -/
theorem C83_undefined_small_buffer (hp : f.parse oid = some p) (k : Key) (idx : Nat) (m : Mem) (key out inp : Ptr) (l0 mlen : Nat)
    (hout : out.blk < m.length) (hlen : p.sig_bytes + mlen < 2 ^ 64) (hroom : ¬ Room m out (p.sig_bytes + mlen)) :
    (Holds m key (k.sk p oid idx) → apiSign P f.parse m key out l0 inp mlen = none) ∧
    (Holds m key (k.pk oid) → apiOpen P f.parse m out l0 inp (p.sig_bytes + mlen) key = none) := by
  obtain ⟨g, hskb, ho, _⟩ := Family.facts (P := P) hp
  have hr : ¬ Room m (out + p.sig_bytes) mlen := by
    rintro ⟨o, h1, h2⟩
    exact hroom ⟨o, h1, by simp only [add_off] at h2; omega⟩
  constructor
  · intro hk
    have hoid : oidReadLoop m key oidLen 0 0 = some oid := oidRead_key hk (by omega)
    rw [apiSign]
    simp only [Option.bind_eq_bind]
    rw [hoid, Option.bind_some]
    simp only [hp]
    rw [coreSign, alloc_pos g.n_pos]
    simp only [Option.bind_eq_bind]
    rw [Option.bind_some]
    dsimp only
    rw [alloc_pos (by omega), Option.bind_some]
    dsimp only
    rw [memcpy_none_of_room, Option.bind_none]
    rw [List.append_assoc]
    exact not_room_left (by exact hout) hr
  · intro hk
    have hoid : oidReadLoop m key oidLen 0 0 = some oid := oidRead_key hk (by omega)
    rw [apiOpen]
    simp only [Option.bind_eq_bind]
    rw [hoid, Option.bind_some]
    simp only [hp]
    rw [coreSignOpen, g.sig_wots]
    simp only [Option.bind_eq_bind]
    rw [alloc_pos (Nat.mul_pos g.len_pos g.n_pos), Option.bind_some]
    dsimp only
    rw [alloc_pos g.n_pos, Option.bind_some]
    dsimp only
    rw [alloc_pos g.n_pos, Option.bind_some]
    dsimp only
    cases bytesToUll _ inp p.index_bytes with
    | none => rfl
    | some idx =>
      rw [Nat.mod_eq_of_lt (a := p.sig_bytes) (by omega), w64_wrap (by omega) hlen, Nat.add_sub_cancel_left, Option.bind_some,
        memcpy_none_of_room, Option.bind_none]
      rw [List.append_assoc, List.append_assoc]
      exact not_room_left (by exact hout) hr

/-- **C83 (undefined: overlapping message).**  Signing a message that partly overlaps the place its copy goes to is
undefined behaviour (`memcpy` between overlapping ranges). -/
theorem C83_undefined_overlap (hp : f.parse oid = some p) (k : Key) (idx : Nat) (m : Mem) (sk sm msg : Ptr) (l0 mlen : Nat)
    (hsk : Holds m sk (k.sk p oid idx)) (h : ¬ Apart msg mlen (sm + p.sig_bytes) mlen) (hne : msg ≠ sm + p.sig_bytes) :
    apiSign P f.parse m sk sm l0 msg mlen = none := by
  obtain ⟨g, hskb, ho, _⟩ := Family.facts (P := P) hp
  have hoid : oidReadLoop m sk oidLen 0 0 = some oid := oidRead_key hsk (by omega)
  rw [apiSign]
  simp only [Option.bind_eq_bind]
  rw [hoid, Option.bind_some]
  simp only [hp]
  rw [coreSign, alloc_pos g.n_pos]
  simp only [Option.bind_eq_bind]
  rw [Option.bind_some]
  dsimp only
  rw [alloc_pos (by omega), Option.bind_some]
  dsimp only
  have : memcpy (m ++ [List.replicate p.n none] ++ [List.replicate 32 none]) (sm + p.sig_bytes) msg mlen = none := by
    unfold memcpy
    unfold Apart at h
    rw [if_pos]
    refine ⟨by omega, ?_, by omega, by omega⟩
    intro e
    apply hne
    obtain ⟨b1, o1⟩ := msg
    obtain ⟨b2, o2⟩ := sm
    simp only [add_blk, add_off] at *
    show (⟨b1, o1⟩ : Ptr) = ⟨b2, o2 + p.sig_bytes⟩
    rw [← e]
    congr 1
    omega
  rw [this, Option.bind_none]

end Xmss.Low
