import Verif.Model.LowTest
import Verif.Props.LowUi
import Verif.Props.SelfTest
import Verif.Props.Toy
/-
C89: the test programs of the repository on the explicit memory.
-/
namespace Xmss.Low

variable {P : Prims} {f : Family} {oid : Nat} {p : Params} {H : Bytes → Bytes}

theorem sig_size (hp : f.parse oid = some p) : p.sig_bytes + 32 < 2 ^ 32 := by
  cases f with
  | xmss =>
    obtain ⟨e, he, _, rfl⟩ := xmss_parse_entry hp
    have : ∀ e ∈ Registry.xmss, (params16 (fun _ => 0) (funcOf e.family) e.n e.pad e.h e.d 0).sig_bytes + 32 < 2 ^ 32 := by decide +kernel
    exact this e he
  | xmssmt =>
    obtain ⟨e, he, _, rfl⟩ := xmssmt_parse_entry hp
    have : ∀ e ∈ Registry.xmssmt, (params16 (fun _ => 0) (funcOf e.family) e.n e.pad e.h e.d 0).sig_bytes + 32 < 2 ^ 32 := by decide +kernel
    exact this e he

/-! ### The fast build -/

/-- Key generation of the fast build in a program whose secret-key array is the uninitialised object 1. -/
theorem keypair_none (hp : f.parseFast oid = some p) (rnd : Params → Bytes) {m : Mem}
    (h0 : m[0]? = some (List.replicate (oidLen + p.pk_bytes) none)) (h1 : m[1]? = some (List.replicate (oidLen + p.sk_bytes) none)) :
    apiKeypairFastL P f m ⟨0, 0⟩ ⟨1, 0⟩ oid rnd = none := by
  have hu : ∀ k : Nat, load m ((⟨1, 0⟩ : Ptr) + k) 1 = none := by
    intro k
    by_contra hc
    obtain ⟨x, hl⟩ := Option.ne_none_iff_exists'.mp hc
    obtain ⟨o, g1, g2⟩ := (Holds.of_load hl).1
    have ho : List.replicate (oidLen + p.sk_bytes) none = o := Option.some.inj (h1.symm.trans g1)
    rw [load_length hl, ← ho, List.length_replicate] at g2
    simp only [add_off, Nat.zero_add] at g2
    refine hc (uninit g1 ?_ (by omega))
    rw [← ho]
    simp only [add_off, Nat.zero_add]
    rw [List.getElem?_replicate, if_pos (by omega)]
  exact C84_undefined_keypair hp m _ _ rnd (room_fresh' h0 (by simp [oidLen])) (room_fresh' h1 (by simp [oidLen]))
    (apart_blk (by omega)) (apart_blk (by simp)) (hu _)

theorem store_other {m m' : Mem} {q : Ptr} {x : Bytes} (h : store m q x = some m') {b : Nat} (hb : q.blk ≠ b) : m'[b]? = m[b]? := by
  unfold store at h
  obtain ⟨o, _, h⟩ := Option.bind_eq_some_iff.mp h
  obtain ⟨o', _, h⟩ := Option.bind_eq_some_iff.mp h
  rw [← Option.some.inj h, List.getElem?_set_ne hb]

/-- **C89 (fast build).**  test/xmss_fast, test/xmssmt_fast, test/maxsigsxmss and test/maxsigsxmssmt, and test/xmss_determinism if it is
linked with the fast implementation, have undefined behaviour for every known parameter set, every number of signatures and all
random bytes: their secret-key array is uninitialised and key generation reads it. -/
theorem C89_fast (hp : f.parseFast oid = some p) (rnd : Params → Bytes) (M : Bytes) (l0 l1 : Nat) :
    (∀ k inv, xmssTestL (libFast P f) oid k inv rnd M l0 l1 = none) ∧
    (∀ k, maxTestL (libFast P f) oid k rnd M l0 = none) ∧
    determinismTestL (libFast P f) oid rnd M l0 = none := by
  have hparse : (libFast P f).parse = f.parseFast := rfl
  have hcall : (libFast P f).keypair = apiKeypairFastL P f := rfl
  obtain ⟨s1, s2, _⟩ := sizes_fast hp
  obtain ⟨a1, a2⟩ := two_bufs (a := oidLen + p.pk_bytes) (b := oidLen + p.sk_bytes) (Nat.add_pos_left (by decide) _)
    (Nat.add_pos_left (by decide) _) s2 s1
  refine ⟨fun k inv => ?_, fun k => ?_, ?_⟩
  · rw [xmssTestL]
    simp only [Option.bind_eq_bind]
    rw [hparse, hp, Option.bind_some, a1, Option.bind_some]
    dsimp only
    rw [a2, Option.bind_some]
    simp only [malloc, List.cons_append, List.nil_append, List.length_cons, List.length_nil, Nat.zero_add, Nat.reduceAdd]
    cases h : store _ _ M with
    | none => rfl
    | some m' =>
      rw [Option.bind_some, hcall, keypair_none hp rnd ((store_other h (by simp)).trans rfl) ((store_other h (by simp)).trans rfl)]
      rfl
  · rw [maxTestL]
    simp only [Option.bind_eq_bind]
    rw [hparse, hp, Option.bind_some, a1, Option.bind_some]
    dsimp only
    rw [a2, Option.bind_some]
    simp only [malloc, List.cons_append, List.nil_append, List.length_cons, List.length_nil, Nat.zero_add, Nat.reduceAdd]
    cases h : store _ _ M with
    | none => rfl
    | some m' =>
      rw [Option.bind_some, hcall, keypair_none hp rnd ((store_other h (by simp)).trans rfl) ((store_other h (by simp)).trans rfl)]
      rfl
  · rw [determinismTestL]
    simp only [Option.bind_eq_bind]
    rw [hparse, hp, Option.bind_some, a1, Option.bind_some]
    dsimp only
    rw [a2, Option.bind_some]
    dsimp only
    rw [show w32 (oidLen + p.sk_bytes) = oidLen + p.sk_bytes from w32_lt s1, alloc_pos (Nat.add_pos_left (by decide) _), Option.bind_some, alloc_pos (by decide), Option.bind_some]
    cases h : alloc _ (w32 (p.sig_bytes + 32)) with
    | none => rfl
    | some x =>
      obtain ⟨q, m1⟩ := x
      rw [Option.bind_some]
      dsimp only
      have e : ∀ {m : Mem} {l : Nat} {y : Ptr × Mem}, alloc m l = some y → y.2 = m ++ [List.replicate l none] := by
        intro m l y hy
        unfold alloc at hy
        split at hy
        · cases hy
        · rw [← Option.some.inj hy]
      have e1 := e h
      cases h' : alloc m1 (w32 (p.sig_bytes + 32)) with
      | none => rfl
      | some x =>
        obtain ⟨q', m2⟩ := x
        rw [Option.bind_some]
        dsimp only
        have e2 := e h'
        dsimp only at e1 e2
        rw [hcall, keypair_none hp rnd (by rw [e2, e1]; rfl) (by rw [e2, e1]; rfl)]
        rfl

/-! ### The simple build -/

/-- The objects of test/xmss.c: public key, secret key, message, signed message (all with known content), output buffer (of which
nothing is assumed). -/
structure Bufs (m : Mem) (pk sk M x : Bytes) (n : Nat) : Prop where
  pk : Holds m ⟨0, 0⟩ pk
  sk : Holds m ⟨1, 0⟩ sk
  msg : Holds m ⟨2, 0⟩ M
  sm : Holds m ⟨3, 0⟩ x
  mout : Room m ⟨4, 0⟩ n

theorem flipBitL_of {m : Mem} {pk sk M x : Bytes} {n i : Nat} (h : Bufs m pk sk M x n) (hi : i < x.length) :
    ∃ m', flipBitL m ⟨3, 0⟩ i = some m' ∧ Bufs m' pk sk M (x.modify i (· ^^^ 1)) n := by
  obtain ⟨b, hb⟩ : ∃ b, b = x[i] := ⟨_, rfl⟩
  have hsplit : x = x.take i ++ [b] ++ x.drop (i + 1) := by
    rw [hb, List.append_assoc, List.singleton_append, ← List.drop_eq_getElem_cons, List.take_append_drop]
  have hsm := h.sm
  rw [hsplit] at hsm
  have hti : (x.take i).length = i := by simp; omega
  have h1 := hsm.left.left
  have h2 := hsm.left.right
  have h3 := hsm.right
  rw [hti] at h2
  rw [List.length_append, hti, List.length_singleton] at h3
  obtain ⟨m', s1, s2, s3⟩ := stF (x := [b ^^^ 1]) (len := 1) h2.1 rfl
  refine ⟨m', ?_, ?_⟩
  · rw [flipBitL]
    simp only [Option.bind_eq_bind]
    rw [h2.load (n := 1) rfl, Option.bind_some]
    exact s1
  · have k3 : x.modify i (· ^^^ 1) = x.take i ++ [b ^^^ 1] ++ x.drop (i + 1) := by
      rw [hb, List.modify_eq_take_cons_drop hi, List.append_assoc, List.singleton_append]
    refine ⟨h.pk.keep s2 ?_, h.sk.keep s2 ?_, h.msg.keep s2 ?_, ?_, h.mout.keep s2⟩
    · intro r hr; rw [List.mem_singleton.mp hr]; exact Or.inl (by simp)
    · intro r hr; rw [List.mem_singleton.mp hr]; exact Or.inl (by simp)
    · intro r hr; rw [List.mem_singleton.mp hr]; exact Or.inl (by simp)
    · rw [k3]
      refine ((h1.keep s2 ?_).append (by rw [hti]; exact s3)).append ?_
      · intro r hr; rw [List.mem_singleton.mp hr]; right; left; simp [hti]
      · rw [List.length_append, hti, List.length_singleton]
        refine h3.keep s2 ?_
        intro r hr; rw [List.mem_singleton.mp hr]; right; right; simp

/-- One verification in test/xmss.c, in both models. -/
theorem open_of (hp : f.parse oid = some p) (hH : Xmss.coreHash P p.func p.n = some H) (k : Key) (hk : k.Valid p)
    {m : Mem} {sk M x : Bytes} (h : Bufs m (k.pk oid) sk M x (p.sig_bytes + 32)) (hx : x.length = p.sig_bytes + 32) (l : Nat)
    (mout0 : Bytes) (hmo : mout0.length = p.sig_bytes + 32) :
    ∃ r m', f.signOpen P mout0 l x (p.sig_bytes + 32) (k.pk oid) = some r ∧ r.m.length = p.sig_bytes + 32 ∧
      apiOpen P f.parse m ⟨4, 0⟩ l ⟨3, 0⟩ (p.sig_bytes + 32) ⟨0, 0⟩ = some (r.ret, r.mlen, m') ∧
      Holds m' ⟨4, 0⟩ (r.m.take 32) ∧ Bufs m' (k.pk oid) sk M x (p.sig_bytes + 32) := by
  have h64 : p.sig_bytes + 32 < 2 ^ 64 := by have := sig_size hp; have : (2 : Nat) ^ 32 < 2 ^ 64 := by norm_num
                                             omega
  have hxs : x.take p.sig_bytes ++ x.drop p.sig_bytes = x := List.take_append_drop _ _
  have h1 : (x.take p.sig_bytes).length = p.sig_bytes := by rw [List.length_take]; omega
  have h2 : (x.drop p.sig_bytes).length = 32 := by rw [List.length_drop]; omega
  obtain ⟨m', o1, o2, o3⟩ := C83_open (P := P) hp hH k hk.root hk.pubSeed m ⟨4, 0⟩ ⟨3, 0⟩ ⟨0, 0⟩ l (x.take p.sig_bytes) (x.drop p.sig_bytes)
    h.pk (by rw [hxs]; exact h.sm) h1 (by rw [h2]; exact h.mout) (apart_blk (by omega)) (apart_blk (by omega)) (by rw [h2]; exact h64)
  obtain ⟨junk, hj, e⟩ := open_call (P := P) hp hH k hk.root hk.pubSeed x mout0 l (p.sig_bytes + 32) (by omega) h64 (by omega) (by omega)
  have e0 : (x.drop p.sig_bytes).take (p.sig_bytes + 32 - p.sig_bytes) = x.drop p.sig_bytes := by
    rw [List.take_of_length_le]; omega
  rw [e0, Nat.add_sub_cancel_left] at e
  rw [h2] at o1 o2 o3
  have hb : Bufs m' (k.pk oid) sk M x (p.sig_bytes + 32) := by
    refine ⟨h.pk.keep o1 ?_, h.sk.keep o1 ?_, h.msg.keep o1 ?_, h.sm.keep o1 ?_, h.mout.keep o1⟩ <;>
    · intro r hr; rw [List.mem_singleton.mp hr]; exact apart_blk (by omega)
  refine ⟨_, m', e, ?_, ?_, ?_, hb⟩
  · dsimp only
    split_ifs <;> simp [hj, h2, hmo] <;> omega
  · by_cases hv : (suiteOf p H).verifyRoot k.root k.pubSeed (x.drop p.sig_bytes) (x.take p.sig_bytes) = k.root
    · dsimp only
      rw [if_pos hv, if_pos hv]; exact (o2 hv).1
    · dsimp only
      rw [if_neg hv, if_neg hv]; exact (o3 hv).1
  · by_cases hv : (suiteOf p H).verifyRoot k.root k.pubSeed (x.drop p.sig_bytes) (x.take p.sig_bytes) = k.root
    · dsimp only
      rw [if_pos hv, List.append_assoc, List.take_left' h2]; exact (o2 hv).2
    · dsimp only
      rw [if_neg hv, List.append_assoc, List.take_left' (by simp)]; exact (o3 hv).2

/-- The pointers of test/xmss.c in the order of their creation. -/
def ptrs : TestPtrs := ⟨⟨0, 0⟩, ⟨1, 0⟩, ⟨2, 0⟩, ⟨3, 0⟩, ⟨4, 0⟩⟩

/-- The state of the program on memory is that of the byte-string program. -/
structure Rel (p : Params) (pk M : Bytes) (s : TestState) (t : TestStateL) : Prop where
  bufs : Bufs t.mem pk s.sk M s.sm (p.sig_bytes + 32)
  smlen : t.smlen = p.sig_bytes + 32
  smlen' : s.smlen = p.sig_bytes + 32
  mlen : t.mlen = s.mlen
  ret : t.ret = s.ret
  sm : s.sm.length = p.sig_bytes + 32
  mout : s.mout.length = p.sig_bytes + 32

theorem flipBit_some {x : Bytes} {i : Nat} (h : i < x.length) : flipBit x i = some (x.modify i (· ^^^ 1)) := by
  rw [flipBit, if_pos h]

theorem invalidLoopL_of (hp : f.parse oid = some p) (hH : Xmss.coreHash P p.func p.n = some H) (k : Key) (hk : k.Valid p) {M : Bytes} :
    ∀ (js : List Nat) (s : TestState) (t : TestStateL), Rel p (k.pk oid) M s t → (∀ j ∈ js, j < p.sig_bytes + 32) →
      ∃ s' t', invalidLoop (f.signOpen P) (k.pk oid) (p.sig_bytes + 32) js s = some s' ∧
        invalidLoopL (libSimple P f) ptrs js t = some t' ∧ Rel p (k.pk oid) M s' t' ∧ s'.sk = s.sk
  | [], s, t, h, _ => ⟨s, t, rfl, rfl, h, rfl⟩
  | j :: js, s, t, h, hjs => by
    have hj : j < s.sm.length := by rw [h.sm]; exact hjs j (List.mem_cons_self ..)
    have hcall : (libSimple P f).signOpen = apiOpen P f.parse := rfl
    obtain ⟨m1, a1, a2⟩ := flipBitL_of h.bufs hj
    obtain ⟨r, m2, b1, b2, b3, b4, b5⟩ := open_of hp hH k hk a2 (by rw [List.length_modify, h.sm]) s.mlen s.mout h.mout
    obtain ⟨m3, c1, c2⟩ := flipBitL_of b5 (i := j) (by rw [List.length_modify]; exact hj)
    rw [invalidLoop, invalidLoopL]
    simp only [Option.bind_eq_bind, ptrs]
    rw [flipBit_some hj, Option.bind_some, b1, Option.bind_some, flipBit_some (by rw [List.length_modify]; exact hj), Option.bind_some,
      a1, Option.bind_some, hcall, h.mlen, h.smlen, b3, Option.bind_some]
    dsimp only
    rw [c1, Option.bind_some]
    by_cases hr : r.ret = 0
    · rw [if_pos hr, if_pos hr]
      exact ⟨_, _, rfl, rfl, ⟨c2, rfl, h.smlen', rfl, rfl, by simp [h.sm], b2⟩, rfl⟩
    · rw [if_neg hr, if_neg hr]
      obtain ⟨s', t', d1, d2, d3, d4⟩ := invalidLoopL_of hp hH k hk js
        { s with sm := (s.sm.modify j (· ^^^ 1)).modify j (· ^^^ 1), mout := r.m, mlen := r.mlen }
        ⟨m3, p.sig_bytes + 32, r.mlen, t.ret⟩ ⟨c2, rfl, h.smlen', rfl, h.ret, by simp [h.sm], b2⟩ fun j hj => hjs j (List.mem_cons_of_mem _ hj)
      exact ⟨s', t', d1, by
        have : t = ⟨t.mem, p.sig_bytes + 32, t.mlen, t.ret⟩ := by rw [← h.smlen]
        rw [this]; exact d2, d3, d4⟩

/-- What the pass needs: as `Rel`, without content of the two output buffers and the two lengths. -/
structure Pre (p : Params) (pk M : Bytes) (s : TestState) (t : TestStateL) : Prop where
  pk : Holds t.mem ⟨0, 0⟩ pk
  sk : Holds t.mem ⟨1, 0⟩ s.sk
  msg : Holds t.mem ⟨2, 0⟩ M
  rsm : Room t.mem ⟨3, 0⟩ (p.sig_bytes + 32)
  rmout : Room t.mem ⟨4, 0⟩ (p.sig_bytes + 32)
  mlen : t.mlen = s.mlen
  ret : t.ret = s.ret
  sm : s.sm.length = p.sig_bytes + 32
  mout : s.mout.length = p.sig_bytes + 32

theorem Rel.pre {pk M : Bytes} {s : TestState} {t : TestStateL} (h : Rel p pk M s t) : Pre p pk M s t :=
  ⟨h.bufs.pk, h.bufs.sk, h.bufs.msg, by have := h.bufs.sm.1; rwa [h.sm] at this, h.bufs.mout, h.mlen, h.ret, h.sm, h.mout⟩

theorem testPassL_of (hp : f.parse oid = some p) (hH : Xmss.coreHash P p.func p.n = some H) (k : Key) (hk : k.Valid p) {M : Bytes}
    (hM : M.length = 32) (inv : Bool) {i : Nat} (hi : i < 2 ^ p.full_height - 1) {s : TestState} {t : TestStateL}
    (h : Pre p (k.pk oid) M s t) (hs : s.sk = k.sk p oid i) :
    ∃ s' t', testPass (f.sign P) (f.signOpen P) p inv (k.pk oid) M s = some s' ∧
      testPassL (libSimple P f) p inv ptrs t = some t' ∧ Rel p (k.pk oid) M s' t' ∧ s'.sk = k.sk p oid (i + 1) := by
  obtain ⟨g, hskb, ho, _⟩ := Family.facts (P := P) hp
  have hHl := Family.hash_length hp hH
  have hfit := g.idx_fits
  have hsz := sig_size hp
  have h3264 : (2 : Nat) ^ 32 < 2 ^ 64 := by norm_num
  have hcall : (libSimple P f).signOpen = apiOpen P f.parse := rfl
  have hcalls : (libSimple P f).sign = apiSign P f.parse := rfl
  obtain ⟨m1, a1, a2, a3, a4, _⟩ := C83_sign (P := P) hp hH k hk i (by omega) t.mem ⟨1, 0⟩ ⟨3, 0⟩ ⟨2, 0⟩ t.smlen M (hs ▸ h.sk)
    (by rw [hM]; exact h.rsm) h.msg (apart_blk (by omega)) (apart_blk (by simp)) (by omega)
  obtain ⟨a4, a5⟩ := a4 hi
  have esg := sign_call (P := P) hp hH k hk i (by omega) s.sm s.smlen M (by rw [hM, h.sm])
  rw [if_pos (by omega), if_pos hi, List.drop_of_length_le (by rw [hM, h.sm]), List.append_nil] at esg
  rw [if_pos (by omega)] at a1
  rw [nextKey, if_pos hi, nextIdx, if_pos hi] at a2 esg
  have hsl := sign_length g hHl k.skSeed k.skPrf k.root k.pubSeed i M
  obtain ⟨sig, hsig⟩ : ∃ sig, sig = (suiteOf p H).sign k.skSeed k.skPrf k.root k.pubSeed i M := ⟨_, rfl⟩
  rw [← hsig] at a4 hsl esg
  have hxl : (sig ++ M).length = p.sig_bytes + 32 := by rw [List.length_append, hsl, hM]
  have hkeep : ∀ {b : Nat} {y : Bytes}, b ≠ 1 → b ≠ 3 → Holds t.mem ⟨b, 0⟩ y → Holds m1 ⟨b, 0⟩ y := by
    intro b y h1 h3 hy
    refine hy.keep a5 ?_
    intro r hr
    rcases List.mem_cons.mp hr with rfl | hr
    · exact Or.inl (by simpa using h1)
    · rw [List.mem_singleton.mp hr]; exact Or.inl h3
  have hb : Bufs m1 (k.pk oid) (k.sk p oid (i + 1)) M (sig ++ M) (p.sig_bytes + 32) :=
    ⟨hkeep (by omega) (by omega) h.pk, a2, hkeep (by omega) (by omega) h.msg, a4.append (by rw [hsl]; exact a3), h.rmout.keep a5⟩
  obtain ⟨v, m2, b1, b2, b3, b4, b5⟩ := open_of hp hH k hk hb hxl t.mlen s.mout h.mout
  have hlast : p.sig_bytes + 32 - 1 < (sig ++ M).length := by omega
  obtain ⟨m3, c1, c2⟩ := flipBitL_of b5 hlast
  obtain ⟨w, m4, d1, d2, d3, d4, d5⟩ := open_of hp hH k hk c2 (by rw [List.length_modify, hxl]) v.mlen v.m b2
  obtain ⟨m5, e1, e2⟩ := flipBitL_of d5 (i := p.sig_bytes + 32 - 1) (by rw [List.length_modify]; exact hlast)
  have hw64 : w64 (p.sig_bytes + 32 + 2 ^ 64 - 1) = p.sig_bytes + 32 - 1 := by
    rw [w64]
    have : p.sig_bytes + 32 + 2 ^ 64 - 1 = (p.sig_bytes + 32 - 1) + 2 ^ 64 := by omega
    rw [this, Nat.add_mod_right, Nat.mod_eq_of_lt (by omega)]
  have hrd : rd v.m 0 32 = some (v.m.take 32) := by rw [rd, if_pos (by omega)]; simp
  have hvt : (v.m.take 32).length = 32 := by rw [List.length_take]; omega
  rw [testPass, testPassL]
  simp only [Option.bind_eq_bind, ptrs]
  rw [hs, esg, Option.bind_some]
  dsimp only
  rw [hM, ← h.mlen, b1, Option.bind_some, hrd, Option.bind_some, if_neg (by omega), flipBit_some hlast, Option.bind_some, d1,
    Option.bind_some, flipBit_some (by rw [List.length_modify]; exact hlast), Option.bind_some]
  rw [← hM, hcalls, a1, Option.bind_some]
  dsimp only
  rw [hM, hcall, b3, Option.bind_some]
  dsimp only
  rw [b5.msg.load hM, Option.bind_some, b4.load hvt, Option.bind_some, hw64, c1, Option.bind_some, d3, Option.bind_some]
  dsimp only
  rw [e1, Option.bind_some, w32_lt hsz, h.ret]
  have hrel : ∀ R : Int, Rel p (k.pk oid) M ⟨k.sk p oid (i + 1),
      ((sig ++ M).modify (p.sig_bytes + 32 - 1) (· ^^^ 1)).modify (p.sig_bytes + 32 - 1) (· ^^^ 1), p.sig_bytes + 32, w.m, w.mlen, R⟩
      ⟨m5, p.sig_bytes + 32, w.mlen, R⟩ :=
    fun R => ⟨e2, rfl, rfl, rfl, rfl, by rw [List.length_modify, List.length_modify, hxl], d2⟩
  cases inv with
  | false =>
    simp only [Bool.false_eq_true, if_false]
    exact ⟨_, _, rfl, rfl, hrel _, rfl⟩
  | true =>
    simp only [if_true]
    obtain ⟨s', t', f1, f2, f3, f4⟩ := invalidLoopL_of hp hH k hk ((List.range ((p.sig_bytes + 32 - 32 + p.n - 1) / p.n)).map (· * p.n))
      _ _ (hrel (if w.ret = 0 then -1 else if M ≠ v.m.take 32 then -1 else if v.mlen ≠ 32 then -1 else if v.ret ≠ 0 then -1
        else if p.sig_bytes + 32 ≠ p.sig_bytes + 32 then -1 else s.ret)) (by
        intro j hj
        obtain ⟨i, hi, rfl⟩ := List.mem_map.mp hj
        have hi := List.mem_range.mp hi
        have hn := g.n_pos
        have h := Nat.div_mul_le_self (p.sig_bytes + 32 - 32 + p.n - 1) p.n
        have h2 : (i + 1) * p.n ≤ (p.sig_bytes + 32 - 32 + p.n - 1) / p.n * p.n := Nat.mul_le_mul_right _ hi
        rw [Nat.add_mul, one_mul] at h2
        omega)
    exact ⟨s', t', f1, f2, f3, f4⟩

theorem testLoopL_of (hp : f.parse oid = some p) (hH : Xmss.coreHash P p.func p.n = some H) (k : Key) (hk : k.Valid p) {M : Bytes}
    (hM : M.length = 32) (inv : Bool) : ∀ (N i : Nat), i + N ≤ 2 ^ p.full_height - 1 → ∀ (s : TestState) (t : TestStateL),
      Pre p (k.pk oid) M s t → s.sk = k.sk p oid i →
      ∃ s' t', testLoop (f.sign P) (f.signOpen P) p inv (k.pk oid) M N s = some s' ∧
        testLoopL (libSimple P f) p inv ptrs N t = some t' ∧ t'.ret = s'.ret
  | 0, _, _, s, t, h, _ => ⟨s, t, rfl, rfl, h.ret⟩
  | N + 1, i, hN, s, t, h, hs => by
    obtain ⟨s1, t1, a1, a2, a3, a4⟩ := testPassL_of hp hH k hk hM inv (i := i) (by omega) h hs
    obtain ⟨s2, t2, b1, b2, b3⟩ := testLoopL_of hp hH k hk hM inv N (i + 1) (by omega) s1 t1 a3.pre a4
    refine ⟨s2, t2, ?_, ?_, b3⟩
    · rw [testLoop]; simp only [Option.bind_eq_bind]; rw [a1, Option.bind_some, b1]
    · rw [testLoopL]; simp only [Option.bind_eq_bind]; rw [a2, Option.bind_some, b2]

/-- **C89 (test/xmss and test/xmssmt, refinement).**  With up to 2^h - 1 signatures the program on memory, whose keys and output buffers
are uninitialised, returns what the byte-string program of C62 returns, for whatever that one takes as initial contents. -/
theorem C89_xmss_test_refines (hp : f.parse oid = some p) (N : Nat) (hN : N ≤ 2 ^ p.full_height - 1) (inv : Bool)
    (pk0 : Bytes) (s0 : TestState) (hpk : pk0.length = 4 + p.pk_bytes)
    (hsk : s0.sk.length = 4 + p.sk_bytes) (hsm : s0.sm.length = p.sig_bytes + 32) (hmo : s0.mout.length = p.sig_bytes + 32)
    (seed : Nat → Bytes) (hs : (seed p.n).length = 3 * p.n) (M : Bytes) (hM : M.length = 32) (l0 : Nat) :
    xmssTestL (libSimple P f) oid N inv (fun q => seed q.n) M l0 s0.mlen =
      xmssTest (f.keypair P) (f.sign P) (f.signOpen P) p oid N inv pk0 s0 seed M := by
  obtain ⟨g, hskb, ho, H, hH⟩ := Family.facts (P := P) hp
  have hHl := Family.hash_length hp hH
  obtain ⟨k, hv, hh, hsd, hk⟩ := keypair_key (P := P) hp hH pk0 s0.sk hpk hsk seed hs
  obtain ⟨s1, s2, s3, _⟩ := sizes_simple hp
  have hsz := sig_size hp
  obtain ⟨a1, a2⟩ := two_bufs (a := oidLen + p.pk_bytes) (b := oidLen + p.sk_bytes) (Nat.add_pos_left (by decide) _)
    (Nat.add_pos_left (by decide) _) s2 s1
  have hparse : (libSimple P f).parse = f.parse := rfl
  have hcall : (libSimple P f).keypair = apiKeypair P f.parse := rfl
  have e4 : oidLen = 4 := rfl
  rw [xmssTestL]
  simp only [Option.bind_eq_bind]
  rw [hparse, hp, Option.bind_some, a1, Option.bind_some]
  dsimp only
  rw [a2, Option.bind_some]
  simp only [malloc, List.cons_append, List.nil_append, List.length_cons, List.length_nil, Nat.zero_add, Nat.reduceAdd]
  rw [w32_lt hsz]
  obtain ⟨m0, hm0⟩ : ∃ m0 : Mem, m0 = [List.replicate (oidLen + p.pk_bytes) none, List.replicate (oidLen + p.sk_bytes) none,
    List.replicate 32 none, List.replicate (p.sig_bytes + 32) none, List.replicate (p.sig_bytes + 32) none] := ⟨_, rfl⟩
  rw [← hm0]
  have r0 : Room m0 ⟨0, 0⟩ (4 + p.pk_bytes) := room_fresh (by rw [hm0]; rfl) (by simp [e4])
  have r1 : Room m0 ⟨1, 0⟩ (4 + p.sk_bytes) := room_fresh (by rw [hm0]; rfl) (by simp [e4])
  have r2 : Room m0 ⟨2, 0⟩ 32 := room_fresh (by rw [hm0]; rfl) (by simp)
  have r3 : Room m0 ⟨3, 0⟩ (p.sig_bytes + 32) := room_fresh (by rw [hm0]; rfl) (by simp)
  have r4 : Room m0 ⟨4, 0⟩ (p.sig_bytes + 32) := room_fresh (by rw [hm0]; rfl) (by simp)
  obtain ⟨m1, b1, b2, b3⟩ := stF r2 hM
  rw [b1, Option.bind_some]
  obtain ⟨k', m2, k1, k2, k3, k4, k5, k6, k7, k8, k9⟩ := C83_keypair (P := P) hp hH m1 ⟨0, 0⟩ ⟨1, 0⟩ (r0.keep b2) (r1.keep b2)
    (apart_blk (by omega)) (fun q => seed q.n) k.skSeed k.skPrf k.pubSeed hsd hv.skSeed hv.skPrf hv.pubSeed
  have e : k' = k := by
    obtain ⟨a, b, c, d⟩ := k
    obtain ⟨a', b', c', d'⟩ := k'
    unfold Key.Honest at k4 hh
    simp only at *
    subst k1 k2 k3
    rw [k4, hh]
  subst e
  rw [hcall, k6, Option.bind_some]
  dsimp only
  have hmsg : Holds m2 ⟨2, 0⟩ M := by
    refine b3.keep k9 ?_
    intro r hr
    rcases List.mem_cons.mp hr with rfl | hr
    · exact apart_blk (by omega)
    · rw [List.mem_singleton.mp hr]; exact apart_blk (by omega)
  obtain ⟨s', t', c1, c2, c3⟩ := testLoopL_of (P := P) hp hH k' hv hM inv N 0 (by omega)
    { s0 with sk := k'.sk p oid 0, ret := 0 } ⟨m2, l0, s0.mlen, 0⟩
    ⟨k7, k8, hmsg, (r3.keep b2).keep k9, (r4.keep b2).keep k9, rfl, rfl, hsm, hmo⟩ rfl
  have hq : (⟨⟨0, 0⟩, ⟨1, 0⟩, ⟨2, 0⟩, ⟨3, 0⟩, ⟨4, 0⟩⟩ : TestPtrs) = ptrs := rfl
  rw [hq, c2, Option.bind_some, c3, xmssTest]
  simp only [Option.bind_eq_bind]
  rw [hk, Option.bind_some, c1, Option.bind_some]

/-- **C89 (test/xmss and test/xmssmt, simple build).**  For every registered OID of either family, every number `N ≤ 2^h - 1` of
signatures, with or without the additional loop over the signature bytes, and all random values, the program on memory
has no undefined behaviour although its keys and output buffers start out uninitialised, and returns 0, or returns -1 and has
found a break of the hash function (`TestBreak`, as in C62). -/
theorem C89_xmss_test (hp : f.parse oid = some p) (N : Nat) (hN : N ≤ 2 ^ p.full_height - 1) (inv : Bool)
    (hinv : inv = true → N ≤ 256 ^ (p.index_bytes - 1))
    (seed : Nat → Bytes) (hs : (seed p.n).length = 3 * p.n) (M : Bytes) (hM : M.length = 32) (l0 l1 : Nat) :
    ∃ ret, xmssTestL (libSimple P f) oid N inv (fun q => seed q.n) M l0 l1 = some ret ∧
      (ret = 0 ∨ (ret = -1 ∧ ∃ (H : Bytes → Bytes) (k : Key), Xmss.coreHash P p.func p.n = some H ∧ k.Valid p ∧
        seed p.n = k.skSeed ++ k.skPrf ++ k.pubSeed ∧ k.Honest (suiteOf p H) ∧
        TestBreak P f p H k oid (List.replicate N M))) := by
  have h1 : (List.replicate (4 + p.pk_bytes) (0 : UInt8)).length = 4 + p.pk_bytes := List.length_replicate
  have h2 : (List.replicate (4 + p.sk_bytes) (0 : UInt8)).length = 4 + p.sk_bytes := List.length_replicate
  have h3 : (List.replicate (p.sig_bytes + 32) (0 : UInt8)).length = p.sig_bytes + 32 := List.length_replicate
  have e := C89_xmss_test_refines (P := P) hp N hN inv (List.replicate (4 + p.pk_bytes) 0)
    ⟨List.replicate (4 + p.sk_bytes) 0, List.replicate (p.sig_bytes + 32) 0, 0, List.replicate (p.sig_bytes + 32) 0, l1, 0⟩ h1 h2 h3 h3
    seed hs M hM l0
  dsimp only at e
  obtain ⟨ret, c1, c2⟩ := C62_xmss_test (P := P) hp N hN inv hinv (List.replicate (4 + p.pk_bytes) 0)
    ⟨List.replicate (4 + p.sk_bytes) 0, List.replicate (p.sig_bytes + 32) 0, 0, List.replicate (p.sig_bytes + 32) 0, l1, 0⟩ h1 h2 h3 h3
    seed hs M hM
  refine ⟨ret, e.trans c1, ?_⟩
  rcases c2 with c2 | ⟨c2, H, k, d1, d2, d3, d4⟩
  · exact Or.inl c2
  · obtain ⟨k', hv, hh, hsd, hk⟩ := keypair_key (P := P) hp d1 _ _ h1 h2 seed hs
    dsimp only at d3
    rw [hk] at d3
    have d3 := Option.some.inj d3
    obtain ⟨-, -, hsk⟩ := (by simpa only [Prod.mk.injEq] using d3 : (0 : Int) = 0 ∧ k'.pk oid = k.pk oid ∧ k'.sk p oid 0 = k.sk p oid 0)
    have hkk : k' = k := by
      obtain ⟨a, b, c, d⟩ := k
      obtain ⟨a', b', c', d'⟩ := k'
      obtain ⟨l1, l2, l3, l4⟩ := d2
      obtain ⟨l1', l2', l3', l4'⟩ := hv
      simp only [Key.sk, List.append_assoc] at hsk l1 l2 l3 l4 l1' l2' l3' l4'
      have x1 := List.append_inj (List.append_inj (List.append_inj hsk rfl).2 rfl).2 (by rw [l1, l1'])
      have x2 := List.append_inj x1.2 (by rw [l2, l2'])
      have x3 := List.append_inj x2.2 (by rw [l3, l3'])
      rw [x1.1, x2.1, x3.1, x3.2]
    exact Or.inr ⟨c2, H, k, d1, d2, hkk ▸ hsd, hkk ▸ hh, d4⟩

/-! ### test/xmss_determinism and test/wots -/

/-- **C89 (test/xmss_determinism, simple build).**  Returns 0 for all random values, for every registered OID of either family (the
program uses XMSS-SHA2_10_256), although its six arrays start out uninitialised. -/
theorem C89_determinism_test (hp : f.parse oid = some p) (seed : Nat → Bytes) (hs : (seed p.n).length = 3 * p.n) (M : Bytes)
    (hM : M.length = 32) (l0 : Nat) :
    determinismTestL (libSimple P f) oid (fun q => seed q.n) M l0 = some 0 := by
  obtain ⟨g, hskb, ho, H, hH⟩ := Family.facts (P := P) hp
  have hHl := Family.hash_length hp hH
  have hfit := g.idx_fits
  obtain ⟨s1, s2, s3, _⟩ := sizes_simple hp
  have hsz := sig_size hp
  have h3264 : (2 : Nat) ^ 32 < 2 ^ 64 := by norm_num
  have hi : 0 < 2 ^ p.full_height - 1 := by
    have h1 : 1 ≤ p.full_height := by rw [← g.height]; exact Nat.mul_pos g.th_pos g.d_pos
    have : 2 ^ 1 ≤ 2 ^ p.full_height := Nat.pow_le_pow_right (by omega) h1
    omega
  have hparse : (libSimple P f).parse = f.parse := rfl
  have hcall : (libSimple P f).keypair = apiKeypair P f.parse := rfl
  have hcalls : (libSimple P f).sign = apiSign P f.parse := rfl
  have e4 : oidLen = 4 := rfl
  rw [determinismTestL]
  simp only [Option.bind_eq_bind]
  rw [hparse, hp, Option.bind_some, e4, w32_lt s1, w32_lt s2, w32_lt hsz, alloc_nil (by omega), Option.bind_some]
  dsimp only
  rw [alloc_pos (by omega), Option.bind_some, alloc_pos (by omega), Option.bind_some, alloc_pos (by omega), Option.bind_some,
    alloc_pos (by omega), Option.bind_some, alloc_pos (by omega), Option.bind_some]
  simp only [List.cons_append, List.nil_append, List.length_cons, List.length_nil, Nat.zero_add, Nat.reduceAdd]
  obtain ⟨m0, hm0⟩ : ∃ m0 : Mem, m0 = [List.replicate (4 + p.pk_bytes) none, List.replicate (4 + p.sk_bytes) none,
    List.replicate (4 + p.sk_bytes) none, List.replicate 32 none, List.replicate (p.sig_bytes + 32) none,
    List.replicate (p.sig_bytes + 32) none] := ⟨_, rfl⟩
  rw [← hm0]
  have r0 : Room m0 ⟨0, 0⟩ (4 + p.pk_bytes) := room_fresh (by rw [hm0]; rfl) (by simp)
  have r1 : Room m0 ⟨1, 0⟩ (4 + p.sk_bytes) := room_fresh (by rw [hm0]; rfl) (by simp)
  have r2 : Room m0 ⟨2, 0⟩ (4 + p.sk_bytes) := room_fresh (by rw [hm0]; rfl) (by simp)
  have r3 : Room m0 ⟨3, 0⟩ 32 := room_fresh (by rw [hm0]; rfl) (by simp)
  have r4 : Room m0 ⟨4, 0⟩ (p.sig_bytes + 32) := room_fresh (by rw [hm0]; rfl) (by simp)
  have r5 : Room m0 ⟨5, 0⟩ (p.sig_bytes + 32) := room_fresh (by rw [hm0]; rfl) (by simp)
  obtain ⟨a, b, c, hsd, l1, l2, l3⟩ : ∃ a b c : Bytes, seed p.n = a ++ b ++ c ∧ a.length = p.n ∧ b.length = p.n ∧ c.length = p.n :=
    ⟨(seed p.n).take p.n, ((seed p.n).drop p.n).take p.n, (seed p.n).drop (p.n + p.n), split3 _ _ _,
      by simp; omega, by simp; omega, by simp; omega⟩
  obtain ⟨k, m1, -, -, -, -, k5, k6, k7, k8, k9⟩ := C83_keypair (P := P) hp hH m0 ⟨0, 0⟩ ⟨1, 0⟩ r0 r1
    (apart_blk (by omega)) (fun q => seed q.n) a b c hsd l1 l2 l3
  have hskl := Key.sk_length k5 hskb oid 0
  rw [hcall, k6, Option.bind_some]
  dsimp only
  obtain ⟨m2, b1, b2, b3⟩ := stF (r2.keep k9) hskl
  rw [memcpy_eq (k8.load hskl) (apart_blk (by omega)), b1, Option.bind_some]
  obtain ⟨m3, c1, c2, c3⟩ := stF ((r3.keep k9).keep b2) hM
  rw [c1, Option.bind_some]
  have one : ∀ {m m' : Mem} {b c n : Nat} {y : Bytes}, Holds m ⟨b, 0⟩ y → OnlyIn m m' [(⟨c, 0⟩, n)] → b ≠ c → Holds m' ⟨b, 0⟩ y := by
    intro m m' b c n y h o hne
    refine h.keep o ?_
    intro r hr
    rw [List.mem_singleton.mp hr]
    exact apart_blk hne
  have two : ∀ {m m' : Mem} {b c d n n' : Nat} {y : Bytes}, Holds m ⟨b, 0⟩ y → OnlyIn m m' [((⟨c, 0⟩ : Ptr) + 4, n), (⟨d, 0⟩, n')] → b ≠ c → b ≠ d →
      Holds m' ⟨b, 0⟩ y := by
    intro m m' b c d n n' y h o hne hne'
    refine h.keep o ?_
    intro r hr
    rcases List.mem_cons.mp hr with rfl | hr
    · exact Or.inl (by simpa using hne)
    · rw [List.mem_singleton.mp hr]; exact apart_blk hne'
  have hsk3 : Holds m3 ⟨1, 0⟩ (k.sk p oid 0) := one (one k8 b2 (by omega)) c2 (by omega)
  have hsk3' : Holds m3 ⟨2, 0⟩ (k.sk p oid 0) := one b3 c2 (by omega)
  obtain ⟨m4, d1, d2, d3, d4, _⟩ := C83_sign (P := P) hp hH k k5 0 (by omega) m3 ⟨1, 0⟩ ⟨4, 0⟩ ⟨3, 0⟩ l0 M hsk3
    (by rw [hM]; exact ((r4.keep k9).keep b2).keep c2) c3 (apart_blk (by omega)) (apart_blk (by simp)) (by omega)
  obtain ⟨d4, d5⟩ := d4 hi
  rw [← hM, hcalls, d1, Option.bind_some]
  dsimp only
  obtain ⟨m5, f1, f2, f3, f4, _⟩ := C83_sign (P := P) hp hH k k5 0 (by omega) m4 ⟨2, 0⟩ ⟨5, 0⟩ ⟨3, 0⟩ (p.sig_bytes + M.length) M
    (two hsk3' d5 (by omega) (by omega))
    (by rw [hM]; exact (((r5.keep k9).keep b2).keep c2).keep d5) (two c3 d5 (by omega) (by omega)) (apart_blk (by omega))
    (apart_blk (by simp)) (by omega)
  obtain ⟨f4, f5⟩ := f4 hi
  rw [f1, Option.bind_some]
  dsimp only
  have hsl := sign_length g hHl k.skSeed k.skPrf k.root k.pubSeed 0 M
  have q1 : Holds m4 ⟨4, 0⟩ ((suiteOf p H).sign k.skSeed k.skPrf k.root k.pubSeed 0 M ++ M) := d4.append (by rw [hsl]; exact d3)
  have q2 : Holds m5 ⟨5, 0⟩ ((suiteOf p H).sign k.skSeed k.skPrf k.root k.pubSeed 0 M ++ M) := f4.append (by rw [hsl]; exact f3)
  have hl : ((suiteOf p H).sign k.skSeed k.skPrf k.root k.pubSeed 0 M ++ M).length = p.sig_bytes + M.length := by
    rw [List.length_append, hsl]
  rw [(two q1 f5 (by omega) (by omega)).load hl, Option.bind_some, q2.load hl, Option.bind_some, if_neg (by simp)]

theorem wotsSign_lengths (g : p.Good) (hl : ∀ x, (H x).length = p.n) (M k s : Bytes) (a : Addr) :
    (Xmss.wotsSign H p M k s a).1.length = p.wots_len ∧ ∀ x ∈ (Xmss.wotsSign H p M k s a).1, x.length = p.n := by
  obtain ⟨e1, e2⟩ := expandSeed_lengths (p := p) hl k s a
  obtain ⟨c1, _⟩ := chainLengths_facts g M
  have := chainsLoop_lengths (p := p) hl s (List.zipWith (fun x l => (x, 0, l)) (Xmss.expandSeed H p k s a).1 (Xmss.chainLengths p M)) 0
    (Xmss.expandSeed H p k s a).2 (by
      intro c hc
      obtain ⟨i, hi, rfl⟩ := List.mem_iff_getElem.mp hc
      rw [List.getElem_zipWith]
      exact e2 _ (List.getElem_mem _))
  refine ⟨?_, this.2⟩
  have h := this.1
  rw [List.length_zipWith, e1, c1, Nat.min_self] at h
  exact h

/-- **C89 (test/wots).**  Returns 0 for all random values (the address array included), for the hash functions of every
registered parameter set (the program uses OID 1), although its three output arrays start out uninitialised. -/
theorem C89_wots_test (hp : f.parse oid = some p) (seed pubSeed M : Bytes) (h1 : seed.length = p.n) (h2 : pubSeed.length = p.n)
    (h3 : M.length = p.n) (addr : Addr) : wotsTestL P p seed pubSeed M addr = some 0 := by
  obtain ⟨g, hskb, ho, H, hH⟩ := Family.facts (P := P) hp
  have hHl := Family.hash_length hp hH
  have hn := g.n_pos
  have hlp : 0 < p.wots_len * p.n := Nat.mul_pos g.len_pos g.n_pos
  have htest := C62_wots_test H p g seed pubSeed M h3 addr
  unfold Xmss.wotsTest at htest
  dsimp only at htest
  rw [wotsTestL, g.sig_wots]
  simp only [Option.bind_eq_bind]
  rw [alloc_nil hn, Option.bind_some]
  dsimp only
  rw [alloc_pos hn, Option.bind_some, alloc_pos hlp, Option.bind_some, alloc_pos hlp, Option.bind_some,
    alloc_pos hlp, Option.bind_some, alloc_pos hn, Option.bind_some]
  simp only [List.cons_append, List.nil_append, List.length_cons, List.length_nil, Nat.zero_add, Nat.reduceAdd]
  obtain ⟨m0, hm0⟩ : ∃ m0 : Mem, m0 = [List.replicate p.n none, List.replicate p.n none, List.replicate (p.wots_len * p.n) none,
    List.replicate (p.wots_len * p.n) none, List.replicate (p.wots_len * p.n) none, List.replicate p.n none] := ⟨_, rfl⟩
  rw [← hm0]
  have r0 : Room m0 ⟨0, 0⟩ p.n := room_fresh (by rw [hm0]; rfl) (by simp)
  have r1 : Room m0 ⟨1, 0⟩ p.n := room_fresh (by rw [hm0]; rfl) (by simp)
  have r2 : Room m0 ⟨2, 0⟩ (p.wots_len * p.n) := room_fresh (by rw [hm0]; rfl) (by simp)
  have r3 : Room m0 ⟨3, 0⟩ (p.wots_len * p.n) := room_fresh (by rw [hm0]; rfl) (by simp)
  have r4 : Room m0 ⟨4, 0⟩ (p.wots_len * p.n) := room_fresh (by rw [hm0]; rfl) (by simp)
  have r5 : Room m0 ⟨5, 0⟩ p.n := room_fresh (by rw [hm0]; rfl) (by simp)
  have one : ∀ {m m' : Mem} {b c n : Nat} {y : Bytes}, Holds m ⟨b, 0⟩ y → OnlyIn m m' [(⟨c, 0⟩, n)] → b ≠ c → Holds m' ⟨b, 0⟩ y := by
    intro m m' b c n y h o hne
    refine h.keep o ?_
    intro r hr
    rw [List.mem_singleton.mp hr]
    exact apart_blk hne
  obtain ⟨m1, a1, a2, a3⟩ := stF r0 h1
  obtain ⟨m2, b1, b2, b3⟩ := stF (r1.keep a2) h2
  obtain ⟨m3, c1, c2, c3⟩ := stF ((r5.keep a2).keep b2) h3
  rw [a1, Option.bind_some, b1, Option.bind_some, c1, Option.bind_some]
  have s3 : Holds m3 ⟨0, 0⟩ seed := one (one a3 b2 (by omega)) c2 (by omega)
  have p3 : Holds m3 ⟨1, 0⟩ pubSeed := one b3 c2 (by omega)
  obtain ⟨m4, d1, d2⟩ := wotsPkgen_of hH hHl g (out := ⟨2, 0⟩) (((r2.keep a2).keep b2).keep c2) (apart_blk (by omega)) (apart_blk (by omega))
    (s3.load h1) (p3.load h2) addr
  obtain ⟨w1, w2⟩ := wotsPkgen_lengths (p := p) hHl seed pubSeed addr
  have o4 := store_onlyIn d1
  rw [d2, Option.bind_some]
  dsimp only
  have s4 := one s3 o4 (by omega)
  have p4 := one p3 o4 (by omega)
  have g4 := one c3 o4 (by omega)
  obtain ⟨m5, f1, f2⟩ := wotsSign_of hH hHl g (sig := ⟨4, 0⟩) ((((r4.keep a2).keep b2).keep c2).keep o4) (apart_blk (by omega))
    (apart_blk (by omega)) (g4.load h3) (s4.load h1) (p4.load h2) (Xmss.wotsPkgen H p seed pubSeed addr).2
  have o5 := store_onlyIn f1
  rw [f2, Option.bind_some]
  dsimp only
  obtain ⟨w3, w4⟩ := wotsSign_lengths g hHl M seed pubSeed (Xmss.wotsPkgen H p seed pubSeed addr).2
  have pkl : (Xmss.wotsPkgen H p seed pubSeed addr).1.flatten.length = p.wots_len * p.n := by rw [flatten_length_of w2, w1]
  have sgl : (Xmss.wotsSign H p M seed pubSeed (Xmss.wotsPkgen H p seed pubSeed addr).2).1.flatten.length = p.wots_len * p.n := by
    rw [flatten_length_of w4, w3]
  obtain ⟨m6, k1, k2⟩ := wotsPkFromSig_of hH hHl g (pk := ⟨3, 0⟩) (((((r3.keep a2).keep b2).keep c2).keep o4).keep o5) (sig := ⟨4, 0⟩)
    (apart_blk (by omega)) (apart_blk (by omega)) ((one g4 o5 (by omega)).load h3) ((one p4 o5 (by omega)).load h2)
    ((store_holds f1).load sgl) (Xmss.wotsSign H p M seed pubSeed (Xmss.wotsPkgen H p seed pubSeed addr).2).2
  rw [chunks_flatten w3.symm w4] at k1 k2
  have heq : (Xmss.wotsPkgen H p seed pubSeed addr).1.flatten = (Xmss.wotsPkFromSig H p
      (Xmss.wotsSign H p M seed pubSeed (Xmss.wotsPkgen H p seed pubSeed addr).2).1 M pubSeed
      (Xmss.wotsSign H p M seed pubSeed (Xmss.wotsPkgen H p seed pubSeed addr).2).2).1.flatten := by
    by_contra hne
    rw [if_pos hne] at htest
    cases htest
  rw [← heq] at k1
  have o6 := store_onlyIn k1
  rw [k2, Option.bind_some]
  dsimp only
  rw [(one (one (store_holds d1) o5 (by omega)) o6 (by omega)).load pkl, Option.bind_some, (store_holds k1).load pkl, Option.bind_some,
    if_neg (by simp)]

/-- The programs as the Makefile builds them: the names that they use are known, their hypotheses hold (16 signatures; here also
with the additional loop, and with the toy primitives), and the fast ones are undefined. -/
theorem C89_instance :
    Family.xmss.strToOid "XMSS-SHA2_10_256" = some 1 ∧ Family.xmssmt.strToOid "XMSSMT-SHA2_20/2_256" = some 1 ∧
    determinismTestL (libSimple Toy.prims .xmss) 1 (fun q => List.replicate (3 * q.n) 7) (List.replicate 32 5) 0 = some 0 ∧
    (∀ f : Family, ∃ ret, xmssTestL (libSimple Toy.prims f) 1 16 true (fun q => List.replicate (3 * q.n) 7) (List.replicate 32 5) 3 4 =
      some ret ∧ (ret = 0 ∨ ret = -1)) ∧
    (∀ f : Family, xmssTestL (libFast Toy.prims f) 1 1024 false (fun q => List.replicate (3 * q.n) 7) (List.replicate 32 5) 3 4 = none) := by
  have hx : ∃ p, Family.xmss.parse 1 = some p ∧ 16 ≤ 2 ^ p.full_height - 1 ∧ 16 ≤ 256 ^ (p.index_bytes - 1) := ⟨_, rfl, by decide, by decide⟩
  have hm : ∃ p, Family.xmssmt.parse 1 = some p ∧ 16 ≤ 2 ^ p.full_height - 1 ∧ 16 ≤ 256 ^ (p.index_bytes - 1) := ⟨_, rfl, by decide, by decide⟩
  have hf : ∀ f : Family, ∃ p, f.parseFast 1 = some p := by
    intro f; cases f
    · exact ⟨_, rfl⟩
    · exact ⟨_, rfl⟩
  refine ⟨by decide, by decide, ?_, ?_, ?_⟩
  · obtain ⟨p, hp, _, _⟩ := hx
    exact C89_determinism_test hp (fun n => List.replicate (3 * n) 7) (by simp) _ (by simp) 0
  · intro f
    obtain ⟨p, hp, h1, h2⟩ : ∃ p, f.parse 1 = some p ∧ 16 ≤ 2 ^ p.full_height - 1 ∧ 16 ≤ 256 ^ (p.index_bytes - 1) := by
      cases f
      · exact hx
      · exact hm
    obtain ⟨ret, e, h⟩ := C89_xmss_test (P := Toy.prims) hp 16 h1 true (fun _ => h2) (fun n => List.replicate (3 * n) 7) (by simp)
      (List.replicate 32 5) (by simp) 3 4
    exact ⟨ret, e, h.imp id fun h => h.1⟩
  · intro f
    obtain ⟨p, hp⟩ := hf f
    exact (C89_fast hp _ _ 3 4).1 1024 false

end Xmss.Low
