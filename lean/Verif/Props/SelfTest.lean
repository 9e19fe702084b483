import Verif.Model.SelfTest
import Verif.Props.WotsAny
import Verif.Props.StrongForgeryFast
import Verif.Props.Sign
import Verif.Props.Toy
/-
C62: the programs of `make test`, for all random values and all contents of uninitialised memory.
-/
namespace Xmss

variable {P : Prims} {f : Family} {oid : Nat} {p pf : Params} {H : Bytes → Bytes}

/-! ### test/wots.c and test/xmss_determinism.c -/

/-- **C62 (test/wots).**  Returns 0 for all random seeds, messages and addresses, for every parameter set (the program uses
OID 1). -/
theorem C62_wots_test (H : Bytes → Bytes) (p : Params) (g : p.Good) (seed pubSeed m : Bytes) (hm : m.length = p.n) (addr : Addr) :
    wotsTest H p seed pubSeed m addr = 0 := by
  obtain ⟨h1, -⟩ := wots_addr_kept H p m seed pubSeed addr
  obtain ⟨-, h2⟩ := wots_addr_kept H p m seed pubSeed (wotsPkgen H p seed pubSeed addr).2
  simp only at h1 h2
  have h := C08_any_address H p g m seed pubSeed hm (wotsPkgen H p seed pubSeed addr).2
    (wotsSign H p m seed pubSeed (wotsPkgen H p seed pubSeed addr).2).2 addr h2
    ⟨h1.1.symm, h1.2.1.symm, h1.2.2.1.symm, h1.2.2.2.1.symm, h1.2.2.2.2.symm⟩
  simp only [wotsTest]
  rw [if_neg]
  simp [h]

/-- **C62 (test/xmss_determinism).**  Returns 0 for all random values and uninitialised contents, for every registered OID of
both families (the program uses XMSS-SHA2_10_256). -/
theorem C62_determinism_test (hp : f.parse oid = some p) (pk0 sk0 sm0 sm0' : Bytes) (hpk : pk0.length = 4 + p.pk_bytes)
    (hsk : sk0.length = 4 + p.sk_bytes) (hsm : sm0.length = p.sig_bytes + 32) (hsm' : sm0'.length = p.sig_bytes + 32) (l0 : Nat)
    (seed : Nat → Bytes) (hs : (seed p.n).length = 3 * p.n) (m : Bytes) (hm : m.length = 32) :
    determinismTest (f.keypair P) (f.sign P) p oid pk0 sk0 sm0 sm0' l0 seed m = some 0 := by
  obtain ⟨g, hskb, ho, H, hH⟩ := Family.facts (P := P) hp
  have hHl := Family.hash_length hp hH
  obtain ⟨k, hv, hh, _, hk⟩ := keypair_key hp hH pk0 sk0 hpk hsk seed hs
  have hp2 : 2 ≤ 2 ^ p.full_height := by
    have : 0 < p.full_height := by rw [← g.height]; exact Nat.mul_pos g.th_pos g.d_pos
    calc 2 = 2 ^ 1 := rfl
      _ ≤ _ := Nat.pow_le_pow_right (by omega) (by omega)
  have h := fun sm (hsm : sm.length = p.sig_bytes + 32) l0 => sign_call hp hH k hv 0 (by positivity) sm l0 m (by rw [hm]; omega)
  simp only [determinismTest, hk, Option.bind_eq_bind, Option.bind_some, h _ hsm, h _ hsm',
    if_pos (show 0 < 2 ^ p.full_height - 1 by omega), List.drop_of_length_le (show sm0.length ≤ p.sig_bytes + m.length by omega),
    List.drop_of_length_le (show sm0'.length ≤ p.sig_bytes + m.length by omega)]
  have hl := sign_length g hHl k.skSeed k.skPrf k.root k.pubSeed 0 m
  simp [rd, hl, hm]

/-! ### test/xmss.c -/

/-- What the loop needs to know about the open function: on signed messages of the length used it succeeds, and which signed
messages it accepts. -/
def Opens (openf : OpenFun) (p : Params) (pk : Bytes) (acc : Bytes → Prop) : Prop :=
  ∀ (mout : Bytes) (l : Nat) (sm : Bytes), sm.length = p.sig_bytes + 32 → mout.length = p.sig_bytes + 32 →
    ∃ r, openf mout l sm (p.sig_bytes + 32) pk = some r ∧ r.m.length = p.sig_bytes + 32 ∧
      (acc sm → r.ret = 0 ∧ r.mlen = 32 ∧ r.m.take 32 = sm.drop p.sig_bytes) ∧ (¬ acc sm → r.ret = -1)

private def flipped (sm : Bytes) (i : Nat) : Bytes := sm.modify i (· ^^^ 1)

private theorem flipBit_eq {sm : Bytes} {i : Nat} (h : i < sm.length) : flipBit sm i = some (flipped sm i) := by
  rw [flipBit, if_pos h]; rfl

private theorem flipped_length (sm : Bytes) (i : Nat) : (flipped sm i).length = sm.length := by simp [flipped]

private theorem xor_one_twice (x : UInt8) : (x ^^^ 1) ^^^ 1 = x := by
  have : ∀ b : BitVec 8, (b ^^^ 1#8) ^^^ 1#8 = b := by decide +kernel
  exact congrArg UInt8.ofBitVec (this x.toBitVec)

private theorem xor_one_ne (x : UInt8) : x ^^^ 1 ≠ x := by
  have : ∀ b : BitVec 8, b ^^^ 1#8 ≠ b := by decide +kernel
  exact fun h => this x.toBitVec (congrArg UInt8.toBitVec h)

private theorem flipped_flipped (sm : Bytes) (i : Nat) : flipped (flipped sm i) i = sm := by
  unfold flipped
  rw [List.modify_modify_eq]
  have : ∀ x : UInt8, (x ^^^ 1) ^^^ 1 = x := xor_one_twice
  have : ((fun x : UInt8 => x ^^^ 1) ∘ fun x => x ^^^ 1) = id := by
    funext x
    exact this x
  rw [this, List.modify_id]

private theorem flipped_ne {sm : Bytes} {i : Nat} (h : i < sm.length) : flipped sm i ≠ sm := by
  intro e
  have h1 : (flipped sm i)[i]? = sm[i]? := by rw [e]
  rw [flipped, List.getElem?_modify_eq, List.getElem?_eq_getElem h] at h1
  exact xor_one_ne _ (Option.some.inj h1)

private theorem invalidLoop_eq {openf : OpenFun} {pk : Bytes} {acc : Bytes → Prop} (ho : Opens openf p pk acc) :
    ∀ (js : List Nat) (s : TestState), s.sm.length = p.sig_bytes + 32 → s.mout.length = p.sig_bytes + 32 →
      (∀ j ∈ js, j < p.sig_bytes + 32) →
      ∃ s', invalidLoop openf pk (p.sig_bytes + 32) js s = some s' ∧ s'.sk = s.sk ∧ s'.sm = s.sm ∧ s'.smlen = s.smlen ∧
        s'.mout.length = p.sig_bytes + 32 ∧
        ((s'.ret = s.ret ∧ ∀ j ∈ js, ¬ acc (flipped s.sm j)) ∨ (s'.ret = -1 ∧ ∃ j ∈ js, acc (flipped s.sm j))) := by
  intro js
  induction js with
  | nil => intro s h1 h2 _; exact ⟨s, rfl, rfl, rfl, rfl, h2, Or.inl ⟨rfl, by simp⟩⟩
  | cons j js ih =>
    intro s h1 h2 h3
    have hj : j < s.sm.length := by rw [h1]; exact h3 j (by simp)
    obtain ⟨r, e1, e2, e3, e4⟩ := ho s.mout s.mlen (flipped s.sm j) (by rw [flipped_length, h1]) h2
    rw [invalidLoop, flipBit_eq hj]
    simp only [Option.bind_eq_bind, Option.bind_some, e1]
    rw [flipBit_eq (by rw [flipped_length]; exact hj), flipped_flipped]
    simp only [Option.bind_some]
    by_cases ha : acc (flipped s.sm j)
    · rw [if_pos (e3 ha).1]
      exact ⟨_, rfl, rfl, rfl, rfl, e2, Or.inr ⟨rfl, j, by simp, ha⟩⟩
    · rw [if_neg (by rw [e4 ha]; decide)]
      obtain ⟨s', f1, f2, f3, f4, f5, f6⟩ := ih { s with sm := s.sm, mout := r.m, mlen := r.mlen } h1 e2
        (fun j hj => h3 j (by simp [hj]))
      refine ⟨s', f1, f2, f3, f4, f5, ?_⟩
      rcases f6 with ⟨g1, g2⟩ | ⟨g1, j', g2, g3⟩
      · refine Or.inl ⟨g1, ?_⟩
        intro j' hj'
        rcases List.mem_cons.mp hj' with rfl | hj'
        · exact ha
        · exact g2 j' hj'
      · exact Or.inr ⟨g1, j', by simp [g2], g3⟩

/-- The positions at which test/xmss.c flips a bit: the last byte of the message, and with `XMSS_TEST_INVALIDSIG` every n-th
byte of the signature. -/
def testPositions (p : Params) (inv : Bool) : List Nat :=
  (p.sig_bytes + 31) :: if inv then (List.range ((p.sig_bytes + p.n - 1) / p.n)).map (· * p.n) else []

private theorem testPositions_lt (hn : 0 < p.n) (inv : Bool) : ∀ j ∈ testPositions p inv, j < p.sig_bytes + 32 := by
  intro j hj
  rw [testPositions] at hj
  rcases List.mem_cons.mp hj with rfl | hj
  · omega
  · cases inv with
    | false => cases hj
    | true =>
      obtain ⟨i, hi, rfl⟩ := List.mem_map.mp (show j ∈ (List.range ((p.sig_bytes + p.n - 1) / p.n)).map (· * p.n) from hj)
      have hi := List.mem_range.mp hi
      have h := Nat.div_mul_le_self (p.sig_bytes + p.n - 1) p.n
      have h2 : (i + 1) * p.n ≤ (p.sig_bytes + p.n - 1) / p.n * p.n := Nat.mul_le_mul_right _ hi
      rw [Nat.add_mul, one_mul] at h2
      omega

private theorem testPass_eq {sign : SignFun} {openf : OpenFun} {pk m : Bytes} {acc : Bytes → Prop} (ho : Opens openf p pk acc)
    (hn : 0 < p.n) (inv : Bool) (s : TestState) (hm : m.length = 32) (hmo : s.mout.length = p.sig_bytes + 32)
    (hret : s.ret = 0 ∨ s.ret = -1) {o : SignOut} (hs : sign s.sk s.sm s.smlen m = some o) (hol : o.smlen = p.sig_bytes + 32)
    {sig : Bytes} (hsl : sig.length = p.sig_bytes) (hosm : o.sm = sig ++ m) :
    ∃ s', testPass sign openf p inv pk m s = some s' ∧ s'.sk = o.sk ∧ s'.sm = sig ++ m ∧ s'.smlen = p.sig_bytes + 32 ∧
      s'.mout.length = p.sig_bytes + 32 ∧ (s'.ret = 0 ∨ s'.ret = -1) ∧
      (s'.ret = 0 ↔ s.ret = 0 ∧ acc (sig ++ m) ∧ ∀ j ∈ testPositions p inv, ¬ acc (flipped (sig ++ m) j)) := by
  have hL : o.sm.length = p.sig_bytes + 32 := by rw [hosm, List.length_append, hsl, hm]
  obtain ⟨v, v1, v2, v3, v4⟩ := ho s.mout s.mlen o.sm hL hmo
  have hlast : p.sig_bytes + 32 - 1 < o.sm.length := by omega
  have e31 : p.sig_bytes + 32 - 1 = p.sig_bytes + 31 := rfl
  obtain ⟨w, w1, w2, w3, w4⟩ := ho v.m v.mlen (flipped o.sm (p.sig_bytes + 32 - 1)) (by rw [flipped_length, hL]) v2
  rw [testPass]
  simp only [hs, Option.bind_eq_bind, Option.bind_some, hol, v1]
  rw [show rd v.m 0 32 = some (v.m.take 32) by rw [rd, if_pos (by omega)]; simp]
  simp only [Option.bind_some]
  rw [if_neg (by omega), flipBit_eq hlast]
  simp only [Option.bind_some, w1]
  rw [flipBit_eq (by rw [flipped_length]; exact hlast), flipped_flipped]
  simp only [Option.bind_some]
  obtain ⟨R, hR⟩ : ∃ R : Int, R = (if w.ret = 0 then -1 else if m ≠ List.take 32 v.m then -1 else if v.mlen ≠ 32 then -1
    else if v.ret ≠ 0 then -1 else if p.sig_bytes + 32 ≠ p.sig_bytes + 32 then -1 else s.ret) := ⟨_, rfl⟩
  have hR2 : (R = 0 ∨ R = -1) ∧ (R = 0 ↔ s.ret = 0 ∧ acc o.sm ∧ ¬ acc (flipped o.sm (p.sig_bytes + 32 - 1))) := by
    by_cases ha : acc o.sm
    · obtain ⟨a1, a2, a3⟩ := v3 ha
      have : List.take 32 v.m = m := by rw [a3, hosm]; exact List.drop_left' hsl
      rw [this, a1, a2] at hR
      by_cases hb : acc (flipped o.sm (p.sig_bytes + 32 - 1))
      · rw [(w3 hb).1] at hR
        simp only [if_true] at hR
        exact ⟨Or.inr hR, by rw [hR]; exact ⟨fun h => absurd h (by decide), fun h => absurd hb h.2.2⟩⟩
      · rw [w4 hb] at hR
        simp at hR
        rw [hR]
        exact ⟨hret, fun h => ⟨h, ha, hb⟩, fun h => h.1⟩
    · rw [v4 ha] at hR
      have : R = -1 := by rw [hR]; split_ifs <;> simp_all
      exact ⟨Or.inr this, by rw [this]; exact ⟨fun h => absurd h (by decide), fun h => absurd h.2.1 ha⟩⟩
  rw [← hR, hosm]
  rw [hosm] at hR2
  cases inv with
  | false =>
    simp only [Bool.false_eq_true, if_false]
    refine ⟨_, rfl, rfl, rfl, rfl, w2, hR2.1, ?_⟩
    simp only [testPositions, Bool.false_eq_true, if_false, List.mem_singleton, forall_eq]
    exact hR2.2
  | true =>
    simp only [if_true]
    rw [show p.sig_bytes + 32 - 32 + p.n - 1 = p.sig_bytes + p.n - 1 by omega]
    have hpos := testPositions_lt hn true
    simp only [testPositions, if_true] at hpos ⊢
    obtain ⟨s', f1, f2, f3, f4, f5, f6⟩ := invalidLoop_eq ho ((List.range ((p.sig_bytes + p.n - 1) / p.n)).map (· * p.n))
      { sk := o.sk, sm := sig ++ m, smlen := p.sig_bytes + 32, mout := w.m, mlen := w.mlen, ret := R } (hosm ▸ hL) w2
      (fun j hj => hpos j (by simp [hj]))
    refine ⟨s', f1, f2, f3, f4, f5, ?_, ?_⟩
    · rcases f6 with ⟨g1, -⟩ | ⟨g1, -⟩
      · rw [g1]; exact hR2.1
      · exact Or.inr g1
    · rcases f6 with ⟨g1, g2⟩ | ⟨g1, j, g2, g3⟩
      · rw [g1]
        simp only
        rw [hR2.2]
        constructor
        · rintro ⟨a, b, c⟩
          refine ⟨a, b, ?_⟩
          intro j hj
          rcases List.mem_cons.mp hj with rfl | hj
          · exact c
          · exact g2 j hj
        · rintro ⟨a, b, c⟩
          exact ⟨a, b, c _ (by simp)⟩
      · rw [g1]
        constructor
        · intro h; cases h
        · rintro ⟨_, _, c⟩
          exact absurd g3 (c j (by simp only [List.mem_cons]; exact Or.inr g2))

/-- The whole loop, for a sign function whose call number `i` writes `sigOf i` in front of the message. -/
private theorem testLoop_eq {sign : SignFun} {openf : OpenFun} {pk m : Bytes} {acc : Bytes → Prop} (ho : Opens openf p pk acc)
    (hn : 0 < p.n) (inv : Bool) (hm : m.length = 32) (sigOf : Nat → Bytes) (Inv : Nat → Bytes → Prop) (N : Nat)
    (hsl : ∀ i < N, (sigOf i).length = p.sig_bytes)
    (hstep : ∀ i < N, ∀ sk sm l, Inv i sk → sm.length = p.sig_bytes + 32 → ∃ o, sign sk sm l m = some o ∧
      o.smlen = p.sig_bytes + 32 ∧ o.sm = sigOf i ++ m ∧ Inv (i + 1) o.sk) :
    ∀ (k i : Nat) (s : TestState), i + k = N → Inv i s.sk → s.sm.length = p.sig_bytes + 32 → s.mout.length = p.sig_bytes + 32 →
      (s.ret = 0 ∨ s.ret = -1) →
      ∃ s', testLoop sign openf p inv pk m k s = some s' ∧ (s'.ret = 0 ∨ s'.ret = -1) ∧
        (s'.ret = 0 ↔ s.ret = 0 ∧ ∀ j, i ≤ j → j < N → acc (sigOf j ++ m) ∧
          ∀ q ∈ testPositions p inv, ¬ acc (flipped (sigOf j ++ m) q)) := by
  intro k
  induction k with
  | zero =>
    intro i s hi _ _ _ hret
    refine ⟨s, rfl, hret, ?_⟩
    constructor
    · intro h; exact ⟨h, fun j h1 h2 => by omega⟩
    · exact fun h => h.1
  | succ k ih =>
    intro i s hi hI hsm hmo hret
    obtain ⟨o, o1, o2, o3, o4⟩ := hstep i (by omega) s.sk s.sm s.smlen hI hsm
    obtain ⟨s1, a1, a2, a3, a4, a5, a6, a7⟩ := testPass_eq ho hn inv s hm hmo hret o1 o2 (hsl i (by omega)) o3
    obtain ⟨s', b1, b2, b3⟩ := ih (i + 1) s1 (by omega) (a2 ▸ o4) (by rw [a3, List.length_append, hsl i (by omega), hm]) a5 a6
    refine ⟨s', by rw [testLoop]; simp only [Option.bind_eq_bind, a1, Option.bind_some]; exact b1, b2, ?_⟩
    rw [b3, a7]
    constructor
    · rintro ⟨⟨h1, h2⟩, h3⟩
      refine ⟨h1, fun j hj1 hj2 => ?_⟩
      rcases Nat.eq_or_lt_of_le hj1 with rfl | hj
      · exact h2
      · exact h3 j hj hj2
    · rintro ⟨h1, h2⟩
      exact ⟨⟨h1, h2 i (by omega) (by omega)⟩, fun j hj1 hj2 => h2 j (by omega) hj2⟩

private theorem index_le_n (hp : f.parse oid = some p) : p.index_bytes ≤ p.n := by
  obtain ⟨g, -⟩ := Family.facts (P := constPrims) hp
  have h : 8 ≤ p.n := by
    cases f with
    | xmss =>
      obtain ⟨e, he, _, rfl⟩ := xmss_parse_entry hp
      have : ∀ e ∈ Registry.xmss, 8 ≤ e.n := by decide +kernel
      exact this e he
    | xmssmt =>
      obtain ⟨e, he, _, rfl⟩ := xmssmt_parse_entry hp
      have : ∀ e ∈ Registry.xmssmt, 8 ≤ e.n := by decide +kernel
      exact this e he
  have := g.idx_le
  omega

/-- The signed messages that open accepts. -/
def Acc (p : Params) (H : Bytes → Bytes) (k : Key) (sm : Bytes) : Prop :=
  (suiteOf p H).verifyRoot k.root k.pubSeed (sm.drop p.sig_bytes) (sm.take p.sig_bytes) = k.root

theorem opens (hp : f.parse oid = some p) (hH : coreHash P p.func p.n = some H) (k : Key) (hv : k.Valid p) :
    Opens (f.signOpen P) p (k.pk oid) (Acc p H k) := by
  obtain ⟨g, -⟩ := Family.facts (P := P) hp
  have hlt := g.sig_lt
  intro mout l sm hsm hmo
  obtain ⟨junk, hj, h⟩ := open_call hp hH k hv.root hv.pubSeed sm mout l (p.sig_bytes + 32) (by omega) (by omega) (by omega) (by omega)
  have e : (sm.drop p.sig_bytes).take (p.sig_bytes + 32 - p.sig_bytes) = sm.drop p.sig_bytes := by
    rw [List.take_of_length_le]; rw [List.length_drop]; omega
  have el : (sm.drop p.sig_bytes).length = 32 := by rw [List.length_drop]; omega
  rw [e, Nat.add_sub_cancel_left] at h
  refine ⟨_, h, ?_, ?_, ?_⟩
  · simp only
    split_ifs <;> simp [hj, el, hmo] <;> omega
  · intro ha
    simp only [Acc] at ha
    simp only [ha, if_true, true_and]
    rw [List.append_assoc]
    exact List.take_left' el
  · intro ha
    simp only [Acc] at ha
    simp only [ha, if_false]

/-- A flipped signed message is not one of the key's own. -/
private theorem flipped_new (hp : f.parse oid = some p) (hH : coreHash P p.func p.n = some H) (k : Key) (N : Nat)
    (hN : N ≤ 2 ^ p.full_height - 1) (inv : Bool) (hinv : inv = true → N ≤ 256 ^ (p.index_bytes - 1)) (m : Bytes)
    (hm : m.length = 32) (i : Nat) (hi : i < N) (q : Nat) (hq : q ∈ testPositions p inv) (i' : Nat) (hi' : i' < N) (sig : Bytes)
    (hsig : sig = (flipped ((suiteOf p H).sign k.skSeed k.skPrf k.root k.pubSeed i m ++ m) q).take p.sig_bytes)
    (hidx : i' = Rfc.toNat (sig.take p.index_bytes)) :
    flipped ((suiteOf p H).sign k.skSeed k.skPrf k.root k.pubSeed i m ++ m) q ≠
      (suiteOf p H).sign k.skSeed k.skPrf k.root k.pubSeed i' m ++ m := by
  obtain ⟨g, -⟩ := Family.facts (P := P) hp
  have hHl := Family.hash_length hp hH
  have hfit := g.idx_fits
  have hib := index_le_n hp
  have hpf := g.prefix_fits
  have hsl := fun i => sign_length g hHl k.skSeed k.skPrf k.root k.pubSeed i m
  have hql := testPositions_lt g.n_pos inv q hq
  set s := (suiteOf p H).sign k.skSeed k.skPrf k.root k.pubSeed i m with hs
  have hsx : s.take p.index_bytes = Rfc.toByte i p.index_bytes := by
    rw [hs, Rfc.Suite.sign, List.append_assoc]
    exact List.take_left' (toByte_length _ _)
  have htk : sig.take p.index_bytes = (flipped (s ++ m) q).take p.index_bytes := by
    rw [hsig, List.take_take, Nat.min_eq_left (by omega)]
  rw [testPositions] at hq
  rcases List.mem_cons.mp hq with rfl | hq
  · -- the last byte of the message
    intro e
    have h2 := congrArg (fun l : Bytes => l[p.sig_bytes + 31]?) e
    rw [flipped, List.getElem?_modify_eq, List.getElem?_append_right (by rw [hsl]; omega),
      List.getElem?_append_right (by rw [hsl]; omega), hsl, hsl, show p.sig_bytes + 31 - p.sig_bytes = 31 by omega,
      List.getElem?_eq_getElem (by omega)] at h2
    exact xor_one_ne _ (Option.some.inj h2)
  · cases inv with
    | false => cases hq
    | true =>
      obtain ⟨j, hj, hjq⟩ := List.mem_map.mp (show q ∈ (List.range ((p.sig_bytes + p.n - 1) / p.n)).map (· * p.n) from hq)
      rcases Nat.eq_zero_or_pos j with rfl | hj0
      · -- the first byte of the index
        exfalso
        have hq0 : q = 0 := by rw [← hjq]; simp
        subst hq0
        have hN' := hinv rfl
        obtain ⟨b, hb⟩ : ∃ b, p.index_bytes = b + 1 := by
          refine ⟨p.index_bytes - 1, ?_⟩
          have : p.index_bytes ≠ 0 := by
            intro h0
            rw [h0, pow_zero] at hfit
            omega
          omega
        rw [hb] at hN' hsx htk hidx
        simp only [Nat.add_sub_cancel] at hN'
        obtain ⟨x, rest, hx⟩ : ∃ x rest, s = x :: rest := by
          cases hc : s with
          | nil => rw [hs] at hc; have := hsl i; rw [hc] at this; simp only [List.length_nil] at this; omega
          | cons x rest => exact ⟨x, rest, rfl⟩
        have hrl : b ≤ rest.length := by
          have := hsl i
          rw [← hs, hx, List.length_cons] at this
          omega
        have e1 : Rfc.toNat (x :: rest.take b) = i := by
          rw [hx, List.take_succ_cons] at hsx
          rw [hsx, toNat_toByte, Nat.mod_eq_of_lt]
          rw [pow_succ]
          have : 0 < 256 ^ b := by positivity
          omega
        rw [toNat_cons, List.length_take, Nat.min_eq_left hrl] at e1
        have hx0 : x.toNat = 0 := by
          by_contra hne
          have : 1 * 256 ^ b ≤ x.toNat * 256 ^ b := Nat.mul_le_mul_right _ (by omega)
          omega
        have e2 : (flipped (s ++ m) 0).take (b + 1) = (x ^^^ 1) :: rest.take b := by
          rw [hx, flipped, List.cons_append, List.modify_zero_cons, List.take_succ_cons, List.take_append_of_le_length hrl]
        rw [htk, e2, toNat_cons, List.length_take, Nat.min_eq_left hrl] at hidx
        have hx1 : (x ^^^ 1).toNat = 1 := by
          have : x = 0 := UInt8.toNat_inj.mp hx0
          rw [this]; rfl
        rw [hx1] at hidx
        omega
      · -- behind the index
        have hqn : p.n ≤ q := by
          rw [← hjq]
          have : 1 * p.n ≤ j * p.n := Nat.mul_le_mul_right _ hj0
          omega
        have : i' = i := by
          rw [hidx, htk]
          have : (flipped (s ++ m) q).take p.index_bytes = s.take p.index_bytes := by
            rw [flipped, List.take_modify, List.modify_eq_self, List.take_append_of_le_length (by rw [hs, hsl]; omega)]
            rw [List.length_take]; omega
          rw [this, hsx, toNat_toByte, Nat.mod_eq_of_lt (by omega)]
        rw [this]
        exact flipped_ne (by rw [List.length_append, hs, hsl, hm]; exact hql)

/-- A signed message of 32 bytes that open accepts for the key `k`, together with the break of the hash function that it
contains (`Broken`: the disjunction of C58). -/
def TestBreak (P : Prims) (f : Family) (p : Params) (H : Bytes → Bytes) (k : Key) (oid : Nat) (msgs : List Bytes) : Prop :=
  ∃ sig msg mout : Bytes, ∃ l r, sig.length = p.sig_bytes ∧ msg.length = 32 ∧
    f.signOpen P mout l (sig ++ msg) (p.sig_bytes + 32) (k.pk oid) = some r ∧ r.ret = 0 ∧ Broken p H k msgs sig msg

theorem acc_sign (g : p.Good) (hHl : ∀ x, (H x).length = p.n) (k : Key) (hh : k.Honest (suiteOf p H)) (m : Bytes) (i : Nat)
    (hi : i < 2 ^ p.full_height) : Acc p H k ((suiteOf p H).sign k.skSeed k.skPrf k.root k.pubSeed i m ++ m) := by
  have hsl := sign_length g hHl k.skSeed k.skPrf k.root k.pubSeed i m
  rw [Acc, List.drop_left' hsl, List.take_left' hsl, verifyRoot_sign g hHl _ _ _ _ _ _ (by have := g.idx_fits; omega),
    Nat.div_eq_of_lt hi]
  rw [Key.Honest] at hh
  rw [hh]
  rfl

/-- An accepted flipped signed message is a break. -/
private theorem flipped_break (hp : f.parse oid = some p) (hH : coreHash P p.func p.n = some H) (k : Key) (hv : k.Valid p)
    (hh : k.Honest (suiteOf p H)) (N : Nat)
    (hN : N ≤ 2 ^ p.full_height - 1) (inv : Bool) (hinv : inv = true → N ≤ 256 ^ (p.index_bytes - 1)) (m : Bytes)
    (hm : m.length = 32) (i : Nat) (hi : i < N) (q : Nat) (hq : q ∈ testPositions p inv)
    (ha : Acc p H k (flipped ((suiteOf p H).sign k.skSeed k.skPrf k.root k.pubSeed i m ++ m) q)) :
    TestBreak P f p H k oid (List.replicate N m) := by
  obtain ⟨g, -⟩ := Family.facts (P := P) hp
  have hHl := Family.hash_length hp hH
  have hlt := g.sig_lt
  obtain ⟨sm, hsm⟩ : ∃ sm, sm = flipped ((suiteOf p H).sign k.skSeed k.skPrf k.root k.pubSeed i m ++ m) q := ⟨_, rfl⟩
  have hL : sm.length = p.sig_bytes + 32 := by
    rw [hsm, flipped_length, List.length_append, sign_length g hHl, hm]
  rw [← hsm] at ha
  obtain ⟨r, r1, -, r3, -⟩ := opens hp hH k hv (List.replicate (p.sig_bytes + 32) 0) 0 sm hL (by simp)
  have h1 : (sm.take p.sig_bytes).length = p.sig_bytes := by rw [List.length_take]; omega
  have h2 : (sm.drop p.sig_bytes).length = 32 := by rw [List.length_drop]; omega
  have h3 : sm.take p.sig_bytes ++ sm.drop p.sig_bytes = sm := List.take_append_drop _ _
  refine ⟨sm.take p.sig_bytes, sm.drop p.sig_bytes, List.replicate (p.sig_bytes + 32) 0, 0, r, h1, h2, by rw [h3]; exact r1,
    (r3 ha).1, ?_⟩
  have := strong_reduction hp hH k hv hh (List.replicate N ⟨[], 0, m⟩) (by rw [List.length_replicate]; omega)
    (sm.take p.sig_bytes) (sm.drop p.sig_bytes) (List.replicate (p.sig_bytes + 32) 0) 0 r h1 (by omega) (by rw [h2]; simp) (by rw [h2, h3]; exact r1) (r3 ha).1 ?_
  · rw [List.map_replicate] at this
    exact this
  · intro c hc
    have hc' := List.eq_of_mem_replicate (List.mem_of_getElem? hc)
    have hl := (List.getElem?_eq_some_iff.mp hc).1
    rw [List.length_replicate] at hl
    rw [hc', h3, hsm]
    refine flipped_new hp hH k N hN inv hinv m hm i hi q hq _ ?_ _ rfl ?_
    · rw [← hsm]; exact hl
    · rfl

/-- **C62 (test/xmss and test/xmssmt).**  For every registered OID of either family, every number `N ≤ 2^h - 1` of
signatures, with or without the additional loop over the signature bytes, all random values and all uninitialised contents:
the program has no undefined behaviour and returns 0, or it returns -1 and has found a break of the hash function (an
accepted signed message that was never issued, as in C58).  (With the additional loop `N` must not exceed `256^(b-1)` for `b`
index bytes.  The Makefile runs `N = 16` without it.) -/
theorem C62_xmss_test (hp : f.parse oid = some p) (N : Nat) (hN : N ≤ 2 ^ p.full_height - 1) (inv : Bool)
    (hinv : inv = true → N ≤ 256 ^ (p.index_bytes - 1)) (pk0 : Bytes) (s0 : TestState) (hpk : pk0.length = 4 + p.pk_bytes)
    (hsk : s0.sk.length = 4 + p.sk_bytes) (hsm : s0.sm.length = p.sig_bytes + 32) (hmo : s0.mout.length = p.sig_bytes + 32)
    (seed : Nat → Bytes) (hs : (seed p.n).length = 3 * p.n) (m : Bytes) (hm : m.length = 32) :
    ∃ ret, xmssTest (f.keypair P) (f.sign P) (f.signOpen P) p oid N inv pk0 s0 seed m = some ret ∧
      (ret = 0 ∨ (ret = -1 ∧ ∃ (H : Bytes → Bytes) (k : Key), coreHash P p.func p.n = some H ∧ k.Valid p ∧
        f.keypair P pk0 s0.sk oid seed = some (0, k.pk oid, k.sk p oid 0) ∧
        TestBreak P f p H k oid (List.replicate N m))) := by
  obtain ⟨g, hskb, ho, H, hH⟩ := Family.facts (P := P) hp
  have hHl := Family.hash_length hp hH
  have hfit := g.idx_fits
  obtain ⟨k, hv, hh, _, hk⟩ := keypair_key hp hH pk0 s0.sk hpk hsk seed hs
  obtain ⟨s', e1, e2, e3⟩ := testLoop_eq (opens hp hH k hv) g.n_pos inv hm
    (fun i => (suiteOf p H).sign k.skSeed k.skPrf k.root k.pubSeed i m) (fun i sk => sk = k.sk p oid i) N
    (fun i _ => sign_length g hHl _ _ _ _ _ _) (sign := f.sign P) (by
      intro i hi sk sm l hI hsm
      subst hI
      refine ⟨_, sign_call hp hH k hv i (by omega) sm l m (by omega), by rw [hm], ?_, ?_⟩
      · simp only [if_pos (show i < 2 ^ p.full_height - 1 by omega)]
        rw [List.drop_of_length_le (by omega), List.append_nil]
      · simp only [nextKey, nextIdx, if_pos (show i < 2 ^ p.full_height - 1 by omega)])
    N 0 { s0 with sk := k.sk p oid 0, ret := 0 } (by omega) rfl hsm hmo (Or.inl rfl)
  refine ⟨s'.ret, ?_, ?_⟩
  · simp only [xmssTest, hk, Option.bind_eq_bind, Option.bind_some, e1]
  · rcases e2 with h | h
    · exact Or.inl h
    · refine Or.inr ⟨h, H, k, hH, hv, hk, ?_⟩
      have h0 : ¬ s'.ret = 0 := by rw [h]; decide
      rw [e3] at h0
      push Not at h0
      obtain ⟨j, -, hj, h0⟩ := h0 rfl
      obtain ⟨q, hq, ha⟩ := h0 (acc_sign g hHl k hh m j (by omega))
      exact flipped_break hp hH k hv hh N hN inv hinv m hm j hj q hq ha

/-! ### The programs linked with the fast implementation -/

theorem signAllFast_snoc (P : Prims) (f : Family) : ∀ (cs : List Call) (sk : Bytes) (c : Call) (outs : List FastOut),
    signAllFast P f sk (cs ++ [c]) = some outs →
    ∃ os o, outs = os ++ [o] ∧ signAllFast P f sk cs = some os ∧
      f.signFast P ((os.getLast?.map (·.sk)).getD sk) c.sm c.smlen0 c.msg = some o := by
  intro cs
  induction cs with
  | nil =>
    intro sk c outs h
    rw [List.nil_append, signAllFast] at h
    obtain ⟨o, h1, h⟩ := Option.bind_eq_some_iff.mp h
    obtain ⟨os, h2, h⟩ := Option.bind_eq_some_iff.mp h
    rw [signAllFast] at h2
    cases h2
    cases h
    exact ⟨[], o, rfl, rfl, h1⟩
  | cons c' cs ih =>
    intro sk c outs h
    rw [List.cons_append, signAllFast] at h
    obtain ⟨o, h1, h⟩ := Option.bind_eq_some_iff.mp h
    obtain ⟨os, h2, h⟩ := Option.bind_eq_some_iff.mp h
    cases h
    obtain ⟨os', o', rfl, h3, h4⟩ := ih o.sk c os h2
    refine ⟨o :: os', o', rfl, ?_, ?_⟩
    · rw [signAllFast, h1]
      simp only [Option.bind_eq_bind, Option.bind_some, h3]
    · rw [List.getLast?_cons]
      cases hc : os'.getLast? with
      | none => rw [hc] at h4; exact h4
      | some x => rw [hc] at h4; exact h4

/-- The secret keys reached after `i` calls in a history of signing `m`. -/
def FastInv (P : Prims) (f : Family) (p : Params) (sk0 m : Bytes) (i : Nat) (sk : Bytes) : Prop :=
  ∃ (cs : List Call) (os : List FastOut), cs.length = i ∧ (∀ c ∈ cs, c.msg = m ∧ c.sm.length = p.sig_bytes + 32) ∧
    signAllFast P f sk0 cs = some os ∧ sk = (os.getLast?.map (·.sk)).getD sk0

theorem fastStep {sk0 m : Bytes} (hm : m.length = 32) {k : Key} {N : Nat}
    (hist : ∀ cs : List Call, (∀ c ∈ cs, p.sig_bytes + c.msg.length ≤ c.sm.length) → cs.length ≤ N →
      ∃ os : List FastOut, signAllFast P f (Rfc.toByte oid 4 ++ sk0) cs = some (os.map fun o => { o with sk := Rfc.toByte oid 4 ++ o.sk }) ∧
        os.length = cs.length ∧ ∀ j c, cs[j]? = some c → ∃ o, os[j]? = some o ∧ PostFast p H k j c o)
    (i : Nat) (hi : i < N) (sk sm : Bytes) (l : Nat) (hI : FastInv P f p (Rfc.toByte oid 4 ++ sk0) m i sk)
    (hsm : sm.length = p.sig_bytes + 32) :
    ∃ o o' : FastOut, f.signFast P sk sm l m = some o ∧ PostFast p H k i ⟨sm, l, m⟩ o' ∧ o.sm = o'.sm ∧ o.ret = o'.ret ∧
      o.smlen = o'.smlen ∧ FastInv P f p (Rfc.toByte oid 4 ++ sk0) m (i + 1) o.sk := by
  obtain ⟨cs, os, h1, h2, h3, h4⟩ := hI
  have hall : ∀ c ∈ cs ++ [(⟨sm, l, m⟩ : Call)], c.msg = m ∧ c.sm.length = p.sig_bytes + 32 := by
    intro c hc
    rcases List.mem_append.mp hc with hc | hc
    · exact h2 c hc
    · rw [List.mem_singleton.mp hc]; exact ⟨rfl, hsm⟩
  obtain ⟨os1, e1, e2, e3⟩ := hist (cs ++ [⟨sm, l, m⟩])
    (fun c hc => by obtain ⟨a, b⟩ := hall c hc; rw [a, b, hm]) (by rw [List.length_append, h1]; exact hi)
  obtain ⟨os', o, f1, f2, f3⟩ := signAllFast_snoc P f cs _ _ _ e1
  rw [h3] at f2
  cases f2
  rw [← h4] at f3
  obtain ⟨o', g1, g2⟩ := e3 i ⟨sm, l, m⟩ (by rw [List.getElem?_append_right (by omega), h1]; simp)
  have hol : os.length = i := by
    have := congrArg List.length f1
    rw [List.length_map, e2, List.length_append, List.length_append, h1] at this
    simp only [List.length_cons, List.length_nil] at this
    omega
  have ho : some o = some { o' with sk := Rfc.toByte oid 4 ++ o'.sk } := by
    have : (os ++ [o])[i]? = some o := by rw [List.getElem?_append_right (by omega), hol]; simp
    rw [← this, ← f1, List.getElem?_map, g1]
    rfl
  have ho := Option.some.inj ho
  refine ⟨o, o', f3, g2, by rw [ho], by rw [ho], by rw [ho], cs ++ [⟨sm, l, m⟩], os ++ [o], by rw [List.length_append, h1]; rfl, hall,
    by rw [e1, f1], ?_⟩
  simp

/-- What the last call of the key's life puts in front of the message, and before that the RFC signatures. -/
private def fastSigOf (p : Params) (H : Bytes → Bytes) (k : Key) (m : Bytes) (i : Nat) : Bytes :=
  if i + 1 < 2 ^ p.full_height then (suiteOf p H).sign k.skSeed k.skPrf k.root k.pubSeed i m else fastLastSig p H m

private theorem fastTest (hp : f.parse oid = some p) (hpf : f.parseFast oid = some pf) (hH : coreHash P p.func p.n = some H)
    (hd : p.d ≤ p.tree_height / 2 + 2) (N : Nat) (hN : N ≤ 2 ^ p.full_height) (inv : Bool)
    (pk0 : Bytes) (s0 : TestState) (hpk : pk0.length = 4 + pf.pk_bytes)
    (hsk : s0.sk.length = 4 + pf.sk_bytes) (hsm : s0.sm.length = p.sig_bytes + 32) (hmo : s0.mout.length = p.sig_bytes + 32)
    (seed : Nat → Bytes) (hs : (seed p.n).length = 3 * p.n) (m : Bytes) (hm : m.length = 32) :
    ∃ (k : Key) (sk : Bytes) (ret : Int), k.Valid p ∧ k.Honest (suiteOf p H) ∧ seed p.n = k.skSeed ++ k.skPrf ++ k.pubSeed ∧
      f.keypairFast P pk0 s0.sk oid seed = some (0, k.pk oid, sk) ∧
      xmssTest (f.keypairFast P) (fastSign (f.signFast P)) (f.signOpenFast P) p oid N inv pk0 s0 seed m = some ret ∧
      (ret = 0 ∨ ret = -1) ∧
      (ret = 0 ↔ ∀ j < N, Acc p H k (fastSigOf p H k m j ++ m) ∧
        ∀ q ∈ testPositions p inv, ¬ Acc p H k (flipped (fastSigOf p H k m j ++ m) q)) := by
  obtain ⟨g, hskb, ho, _⟩ := Family.facts (P := P) hp
  have hHl := Family.hash_length hp hH
  obtain ⟨pf', hpf', e⟩ := parse_both hp
  rw [hpf] at hpf'
  cases hpf'
  have hHf : coreHash P pf.func pf.n = some H := by rw [e]; exact hH
  have hS : suiteOf pf H = suiteOf p H := by rw [e]; rfl
  have en : pf.n = p.n := by rw [e]
  have esig : pf.sig_bytes = p.sig_bytes := by rw [e]
  have efh : pf.full_height = p.full_height := by rw [e]
  have eth : pf.tree_height = p.tree_height := by rw [e]
  have ed : pf.d = p.d := by rw [e]
  have elast : fastLastSig pf H m = fastLastSig p H m := by rw [e]; rfl
  obtain ⟨k, hv, hh, hsd, sk, _, ek, hist⟩ := fast_history hpf hHf pk0 s0.sk hpk hsk seed (by rw [en]; exact hs)
  have hv' : k.Valid p := ⟨by rw [← en]; exact hv.skSeed, by rw [← en]; exact hv.skPrf, by rw [← en]; exact hv.root,
    by rw [← en]; exact hv.pubSeed⟩
  have ho' : Opens (f.signOpenFast P) p (k.pk oid) (Acc p H k) := by
    intro a b c d e
    rw [C49_open_is_the_same]
    exact opens hp hH k hv' a b c d e
  obtain ⟨s', e1, e2, e3⟩ := testLoop_eq ho' g.n_pos inv hm (fastSigOf p H k m)
    (FastInv P f p (Rfc.toByte oid 4 ++ sk) m) N
    (fun i _ => by
      rw [fastSigOf]; split
      · exact sign_length g hHl _ _ _ _ _ _
      · exact fastLastSig_length g hHl m) (sign := fastSign (f.signFast P)) (by
      intro i hi sk' sm l hI hsm
      obtain ⟨o, o', a1, a2, a3, a4, a5, a6⟩ := fastStep (p := pf) (H := H) (k := k) (oid := oid) (sk0 := sk) hm (N := N) (fun cs hcs hl => hist cs hcs
        ⟨fun h => by rw [efh] at h; rw [h] at hN; omega, Or.inl (by rw [ed, eth]; exact hd)⟩) i hi sk' sm l
        (by rw [FastInv, esig]; exact hI) (by rw [esig]; exact hsm)
      refine ⟨o.toSignOut, by rw [fastSign, a1]; rfl, ?_, ?_, ?_⟩
      · show o.smlen = _
        rw [a5]
        by_cases hlast : i + 1 < 2 ^ p.full_height
        · rw [(a2.ok (by rw [efh]; exact hlast)).2.1, esig, hm]
        · rw [(a2.last (by rw [efh]; omega)).2.1, esig, hm]
      · show o.sm = _
        rw [a3, fastSigOf]
        by_cases hlast : i + 1 < 2 ^ p.full_height
        · rw [(a2.ok (by rw [efh]; exact hlast)).2.2.1, if_pos hlast, hS, List.drop_of_length_le (by simp only; omega), List.append_nil]
        · rw [(a2.last (by rw [efh]; omega)).2.2.1, if_neg hlast, elast, List.drop_of_length_le (by simp only; omega), List.append_nil]
      · show FastInv P f p _ m (i + 1) o.sk
        rw [FastInv, esig] at a6
        exact a6)
    N 0 { s0 with sk := Rfc.toByte oid 4 ++ sk, ret := 0 } (by omega) ⟨[], [], rfl, by simp, rfl, rfl⟩ hsm hmo (Or.inl rfl)
  refine ⟨k, _, s'.ret, hv', hS ▸ hh, by rw [← en]; exact hsd, ek, ?_, e2, ?_⟩
  · simp only [xmssTest, ek, Option.bind_eq_bind, Option.bind_some, e1]
  · rw [e3]
    simp

/-- **C62 (test/xmss.c, fast implementation).**  As `C62_xmss_test`, for the sets with `d ≤ h'/2 + 2`.  The Makefile runs
`N = 1024` for test/xmssmt_fast (height 20). -/
theorem C62_xmss_fast_test (hp : f.parse oid = some p) (hpf : f.parseFast oid = some pf)
    (hd : p.d ≤ p.tree_height / 2 + 2) (N : Nat) (hN : N ≤ 2 ^ p.full_height - 1) (inv : Bool)
    (hinv : inv = true → N ≤ 256 ^ (p.index_bytes - 1)) (pk0 : Bytes) (s0 : TestState) (hpk : pk0.length = 4 + pf.pk_bytes)
    (hsk : s0.sk.length = 4 + pf.sk_bytes) (hsm : s0.sm.length = p.sig_bytes + 32) (hmo : s0.mout.length = p.sig_bytes + 32)
    (seed : Nat → Bytes) (hs : (seed p.n).length = 3 * p.n) (m : Bytes) (hm : m.length = 32) :
    ∃ ret, xmssTest (f.keypairFast P) (fastSign (f.signFast P)) (f.signOpenFast P) p oid N inv pk0 s0 seed m = some ret ∧
      (ret = 0 ∨ (ret = -1 ∧ ∃ (H : Bytes → Bytes) (k : Key) (sk : Bytes), coreHash P p.func p.n = some H ∧ k.Valid p ∧
        f.keypairFast P pk0 s0.sk oid seed = some (0, k.pk oid, sk) ∧
        TestBreak P f p H k oid (List.replicate N m))) := by
  obtain ⟨g, hskb, ho, H, hH⟩ := Family.facts (P := P) hp
  have hHl := Family.hash_length hp hH
  have hpos : 0 < 2 ^ p.full_height := Nat.two_pow_pos _
  obtain ⟨k, sk, ret, hv, hh, _, e1, e2, e3, e4⟩ := fastTest hp hpf hH hd N (by omega) inv pk0 s0 hpk hsk hsm hmo seed hs m hm
  refine ⟨ret, e2, ?_⟩
  rcases e3 with h | h
  · exact Or.inl h
  · refine Or.inr ⟨h, H, k, sk, hH, hv, e1, ?_⟩
    have h0 : ¬ ret = 0 := by rw [h]; decide
    rw [e4] at h0
    push Not at h0
    obtain ⟨j, hj, h0⟩ := h0
    have ej : fastSigOf p H k m j = (suiteOf p H).sign k.skSeed k.skPrf k.root k.pubSeed j m := by rw [fastSigOf, if_pos (by omega)]
    rw [ej] at h0
    obtain ⟨q, hq, ha⟩ := h0 (acc_sign g hHl k hh m j (by omega))
    exact flipped_break hp hH k hv hh N hN inv hinv m hm j hj q hq ha

/-- The run with all `2^h` signatures: 0 only if the verifier computes the root from the last signature. -/
theorem xmss_test_last (hp : f.parse oid = some p) (hpf : f.parseFast oid = some pf) (hH : coreHash P p.func p.n = some H)
    (hd : p.d ≤ p.tree_height / 2 + 2) (inv : Bool)
    (pk0 : Bytes) (s0 : TestState) (hpk : pk0.length = 4 + pf.pk_bytes)
    (hsk : s0.sk.length = 4 + pf.sk_bytes) (hsm : s0.sm.length = p.sig_bytes + 32) (hmo : s0.mout.length = p.sig_bytes + 32)
    (seed : Nat → Bytes) (hs : (seed p.n).length = 3 * p.n) (m : Bytes) (hm : m.length = 32) :
    ∃ (ret : Int) (k : Key) (sk : Bytes), k.Valid p ∧ k.Honest (suiteOf p H) ∧ seed p.n = k.skSeed ++ k.skPrf ++ k.pubSeed ∧
      f.keypairFast P pk0 s0.sk oid seed = some (0, k.pk oid, sk) ∧
      xmssTest (f.keypairFast P) (fastSign (f.signFast P)) (f.signOpenFast P) p oid (2 ^ p.full_height) inv pk0 s0 seed m = some ret ∧
      (ret = 0 ∨ ret = -1) ∧ (ret = 0 → (suiteOf p H).verifyRoot k.root k.pubSeed m (fastLastSig p H m) = k.root) := by
  obtain ⟨g, hskb, ho, _⟩ := Family.facts (P := P) hp
  have hHl := Family.hash_length hp hH
  have hpos : 0 < 2 ^ p.full_height := Nat.two_pow_pos _
  obtain ⟨k, sk, ret, hv, hh, hsd, e1, e2, e3, e4⟩ := fastTest hp hpf hH hd (2 ^ p.full_height) (Nat.le_refl _) inv pk0 s0 hpk hsk hsm hmo seed hs m hm
  refine ⟨ret, k, sk, hv, hh, hsd, e1, e2, e3, ?_⟩
  intro h0
  have h := (e4.mp h0 (2 ^ p.full_height - 1) (by omega)).1
  have hl := fastLastSig_length g hHl m
  rw [fastSigOf, if_neg (by omega), Acc, List.drop_left' hl, List.take_left' hl] at h
  exact h

/-- **C62 is false of test/xmss_fast (see `Toy.C62_fails`).**  The Makefile runs it with `2^10` signatures of height 10, so its last signature is
the one made from the deleted key.  If the program returns 0, open accepts, for the random key of the run, the byte string
`fastLastSig` in front of the message, which depends on nothing but the parameters and the message. -/
theorem C62_xmss_fast_last (hp : f.parse oid = some p) (hpf : f.parseFast oid = some pf) (hH : coreHash P p.func p.n = some H)
    (hd : p.d ≤ p.tree_height / 2 + 2) (inv : Bool)
    (pk0 : Bytes) (s0 : TestState) (hpk : pk0.length = 4 + pf.pk_bytes)
    (hsk : s0.sk.length = 4 + pf.sk_bytes) (hsm : s0.sm.length = p.sig_bytes + 32) (hmo : s0.mout.length = p.sig_bytes + 32)
    (seed : Nat → Bytes) (hs : (seed p.n).length = 3 * p.n) (m : Bytes) (hm : m.length = 32)
    (h0 : xmssTest (f.keypairFast P) (fastSign (f.signFast P)) (f.signOpenFast P) p oid (2 ^ p.full_height) inv pk0 s0 seed m =
      some 0) (mout : Bytes) (hmout : mout.length = p.sig_bytes + 32) (l : Nat) :
    ∃ pk sk r, f.keypairFast P pk0 s0.sk oid seed = some (0, pk, sk) ∧
      f.signOpenFast P mout l (fastLastSig p H m ++ m) (p.sig_bytes + 32) pk = some r ∧ r.ret = 0 := by
  obtain ⟨g, hskb, ho, _⟩ := Family.facts (P := P) hp
  have hHl := Family.hash_length hp hH
  have hpos : 0 < 2 ^ p.full_height := Nat.two_pow_pos _
  obtain ⟨k, sk, ret, hv, hh, _, e1, e2, e3, e4⟩ := fastTest hp hpf hH hd (2 ^ p.full_height) (Nat.le_refl _) inv pk0 s0 hpk hsk hsm hmo seed hs m hm
  rw [h0] at e2
  cases e2
  have h := (e4.mp rfl (2 ^ p.full_height - 1) (by omega)).1
  rw [fastSigOf, if_neg (by omega)] at h
  obtain ⟨r, r1, -, r3, -⟩ := opens hp hH k hv mout l (fastLastSig p H m ++ m)
    (by rw [List.length_append, fastLastSig_length g hHl, hm]) hmout
  exact ⟨_, _, r, e1, by rw [C49_open_is_the_same]; exact r1, (r3 h).1⟩

/-! ### test/xmss_max_signatures.c -/

private theorem maxLoop_eq {sign : SignFun} {m : Bytes} (last : Bool) (Inv : Nat → Bytes → Prop) (N : Nat) (L : Nat)
    (hstep : ∀ i < N, ∀ sk sm l, Inv i sk → sm.length = L → ∃ o, sign sk sm l m = some o ∧ o.sm.length = L ∧
      (if last then o.ret ≠ 0 else o.ret = 0) ∧ Inv (i + 1) o.sk) :
    ∀ (k i : Nat) (s : TestState), i + k = N → Inv i s.sk → s.sm.length = L → s.ret = 0 →
      ∃ s', maxLoop sign m last k s = some s' ∧ s'.ret = 0 ∧ Inv N s'.sk ∧ s'.sm.length = L := by
  intro k
  induction k with
  | zero => intro i s hi hI hl hr; exact ⟨s, rfl, hr, by rw [← hi]; exact hI, hl⟩
  | succ k ih =>
    intro i s hi hI hl hr
    obtain ⟨o, o1, o2, o3, o4⟩ := hstep i (by omega) s.sk s.sm s.smlen hI hl
    obtain ⟨s', e⟩ := ih (i + 1) { s with sk := o.sk, sm := o.sm, smlen := o.smlen, ret := s.ret } (by omega) o4 o2 hr
    refine ⟨s', ?_, e.2⟩
    rw [maxLoop, o1]
    simp only [Option.bind_eq_bind, Option.bind_some]
    have : (if (if last then o.ret = 0 else o.ret ≠ 0) then (-1 : Int) else s.ret) = s.ret := by
      cases last <;> simp_all
    convert e.1 using 2
    rw [TestState.mk.injEq]
    refine ⟨rfl, rfl, rfl, rfl, rfl, ?_⟩
    cases last <;> simp_all

/-- **C62 (test/maxsigsxmss, test/maxsigsxmssmt).**  With the fast implementation, for every set with `d ≤ h'/2 + 2` and a
height other than 40, all random values and all uninitialised contents: the program has no undefined behaviour and returns 0:
`2^h` calls return 0 and the next two do not.  (It does not open the signatures, so it does not see that the last one is not
valid, `C62_xmss_fast_last`.) -/
theorem C62_max_signatures_test (hpf : f.parseFast oid = some pf)
    (hd : pf.d ≤ pf.tree_height / 2 + 2) (h40 : pf.full_height ≠ 40) (pk0 : Bytes) (s0 : TestState)
    (hpk : pk0.length = 4 + pf.pk_bytes) (hsk : s0.sk.length = 4 + pf.sk_bytes) (hsm : s0.sm.length = pf.sig_bytes + 32)
    (seed : Nat → Bytes) (hs : (seed pf.n).length = 3 * pf.n) (m : Bytes) (hm : m.length = 32) :
    maxTest (f.keypairFast P) (fastSign (f.signFast P)) oid (2 ^ pf.full_height) pk0 s0 seed m = some 0 := by
  obtain ⟨H, hH, hHl⟩ := Family.hashFast (P := P) hpf
  obtain ⟨g, _, _, _, _, _⟩ := parseFast_good hpf
  obtain ⟨k, hv, hh, hsd, sk, _, ek, hist⟩ := fast_history hpf hH pk0 s0.sk hpk hsk seed hs
  have step := fun (i N : Nat) (hi : i < N) (sk' sm : Bytes) (l : Nat) (hI : FastInv P f pf (Rfc.toByte oid 4 ++ sk) m i sk')
      (hsm : sm.length = pf.sig_bytes + 32) =>
    fastStep (p := pf) (H := H) (k := k) (oid := oid) (sk0 := sk) hm (N := N)
      (fun cs hcs hl => hist cs hcs ⟨fun h => absurd h h40, Or.inl hd⟩) i hi sk' sm l hI hsm
  obtain ⟨s1, a1, a2, a3, a4⟩ := maxLoop_eq (sign := fastSign (f.signFast P)) (m := m) false
    (FastInv P f pf (Rfc.toByte oid 4 ++ sk) m) (2 ^ pf.full_height) (pf.sig_bytes + 32) (by
      intro i hi sk' sm l hI hsm
      obtain ⟨o, o', b1, b2, b3, b4, b5, b6⟩ := step i _ hi sk' sm l hI hsm
      refine ⟨o.toSignOut, by rw [fastSign, b1]; rfl, ?_, ?_, b6⟩
      · show o.sm.length = _
        rw [b3]
        by_cases hlast : i + 1 < 2 ^ pf.full_height
        · rw [(b2.ok hlast).2.2.1, List.length_append, List.length_append, sign_length g hHl, List.length_drop]
          simp only
          omega
        · rw [(b2.last (by omega)).2.2.1, List.length_append, List.length_append, fastLastSig_length g hHl, List.length_drop]
          simp only
          omega
      · show o.ret = 0
        rw [b4]
        by_cases hlast : i + 1 < 2 ^ pf.full_height
        · exact (b2.ok hlast).1
        · exact (b2.last (by omega)).1)
    (2 ^ pf.full_height) 0 { s0 with sk := Rfc.toByte oid 4 ++ sk, ret := 0 } (by omega) ⟨[], [], rfl, by simp, rfl, rfl⟩ hsm rfl
  obtain ⟨s2, c1, c2, -, -⟩ := maxLoop_eq (sign := fastSign (f.signFast P)) (m := m) true
    (fun i sk' => FastInv P f pf (Rfc.toByte oid 4 ++ sk) m (2 ^ pf.full_height + i) sk') 2 (pf.sig_bytes + 32) (by
      intro i hi sk' sm l hI hsm
      obtain ⟨o, o', b1, b2, b3, b4, b5, b6⟩ := step (2 ^ pf.full_height + i) (2 ^ pf.full_height + 2) (by omega) sk' sm l hI hsm
      obtain ⟨d1, d2, d3, d4⟩ := b2.over (by omega)
      refine ⟨o.toSignOut, by rw [fastSign, b1]; rfl, ?_, ?_, b6⟩
      · show o.sm.length = _
        rw [b3, d2]
        exact hsm
      · show o.ret ≠ 0
        rw [b4, d1]
        decide)
    2 0 s1 (by omega) a3 a4 a2
  simp only [maxTest, ek, Option.bind_eq_bind, Option.bind_some, a1, c1, c2]

/-! ### test/oid.c -/

/-- **C62 (test/oid).**  Returns 0, and tests every registered name: the names in it are exactly those of the registries, in
the order of the OIDs. -/
theorem C62_oid_test : oidTest = 0 ∧ oidTestXmss = Registry.xmss.map (·.name) ∧ oidTestXmssmt = Registry.xmssmt.map (·.name) :=
  ⟨by decide +kernel, by decide +kernel, by decide +kernel⟩

end Xmss
