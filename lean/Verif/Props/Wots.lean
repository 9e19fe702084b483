import Verif.Props.Params
import Verif.Proof.Wots
import Verif.Proof.Treehash
/-
C06-C09: WOTS+.
-/
namespace Xmss

/-! ### Digits -/

/-- The value of a digit string in base `w`, most significant digit first. -/
def digitValue (w : Nat) (l : List Nat) : Nat := l.foldl (fun acc d => w * acc + d) 0

theorem digits_succ {w : Nat} (k x : Nat) : Rfc.digits w (k + 1) x = Rfc.digits w k (x / w) ++ [x % w] := by
  simp only [Rfc.digits, List.range_succ, List.map_append, List.map_cons, List.map_nil]
  congr 1
  · apply List.map_congr_left
    intro i hi
    have hi := List.mem_range.mp hi
    rw [Nat.div_div_eq_div_mul, ← pow_succ']
    congr 3; omega
  · simp

theorem digitValue_digits {w : Nat} (k x : Nat) : digitValue w (Rfc.digits w k x) = x % w ^ k := by
  induction k generalizing x with
  | zero => simp [Rfc.digits, digitValue, Nat.mod_one]
  | succ k ih =>
    have := ih (x / w)
    unfold digitValue at this ⊢
    rw [digits_succ, List.foldl_append, this, List.foldl_cons, List.foldl_nil, pow_succ', Nat.mod_mul]
    omega

theorem foldl_mono {w : Nat} : ∀ (a b : List Nat) (c c' : Nat), a.length = b.length → c ≤ c' →
    (∀ j, a.getD j 0 ≤ b.getD j 0) →
    a.foldl (fun acc d => w * acc + d) c ≤ b.foldl (fun acc d => w * acc + d) c' := by
  intro a
  induction a with
  | nil => intro b c c' hl hc _; cases b <;> simp_all
  | cons x a ih =>
    intro b c c' hl hc h
    cases b with
    | nil => simp at hl
    | cons y b =>
      have h0 := h 0
      simp only [List.getD_cons_zero] at h0
      apply ih b _ _ (by simpa using hl) (by have := Nat.mul_le_mul_left w hc; show w * c + x ≤ w * c' + y; omega)
      intro j
      simpa using h (j + 1)

theorem csum_anti {w : Nat} : ∀ (a b : List Nat), a.length = b.length → (∀ j, a.getD j 0 ≤ b.getD j 0) →
    (∀ x ∈ b, x < w) →
    (b.map fun x => w - 1 - x).sum ≤ (a.map fun x => w - 1 - x).sum ∧
    ((b.map fun x => w - 1 - x).sum = (a.map fun x => w - 1 - x).sum → a = b) := by
  intro a
  induction a with
  | nil => intro b hl _ _; cases b <;> simp_all
  | cons x a ih =>
    intro b hl h hb
    cases b with
    | nil => simp at hl
    | cons y b =>
      have h0 := h 0
      simp only [List.getD_cons_zero] at h0
      obtain ⟨i1, i2⟩ := ih b (by simpa using hl) (fun j => by simpa using h (j + 1)) (fun z hz => hb z (by simp [hz]))
      have hy := hb y (by simp)
      simp only [List.map_cons, List.sum_cons]
      refine ⟨by omega, fun e => ?_⟩
      rw [i2 (by omega), show x = y by omega]

/-! ### C06 -/

/-- **C06.**  Chain lengths of an n-byte message: `len_1` message digits, then `len_2` checksum digits, all in base w,
most significant first, all below w; the checksum is not truncated; and the message digits determine the message. -/
theorem C06_digits (p : Params) (g : p.Good) (msg : Bytes) (hm : msg.length = p.n) :
    ∃ digs csum : List Nat, chainLengths p msg = digs ++ csum ∧
      digs.length = p.wots_len1 ∧ csum.length = p.wots_len2 ∧
      (∀ x ∈ chainLengths p msg, x < p.wots_w) ∧
      digitValue p.wots_w digs = Rfc.toNat msg ∧
      digitValue p.wots_w csum = (digs.map fun x => p.wots_w - 1 - x).sum := by
  refine ⟨Rfc.digits p.wots_w p.wots_len1 (Rfc.toNat msg), Rfc.digits p.wots_w p.wots_len2
    ((Rfc.digits p.wots_w p.wots_len1 (Rfc.toNat msg)).map fun x => p.wots_w - 1 - x).sum, ?_, ?_, ?_, ?_, ?_, ?_⟩
  · rw [chainLengths_eq g id hm, Rfc.Suite.wotsDigits, g.len1_eq, g.len2_eq]; rfl
  · exact digits_length _ _ _
  · exact digits_length _ _ _
  · intro x hx
    rw [chainLengths_eq g id hm] at hx
    exact wotsDigits_lt _ g.w_pos _ hx
  · rw [digitValue_digits, Nat.mod_eq_of_lt]
    calc Rfc.toNat msg < 256 ^ msg.length := toNat_lt msg
      _ = 2 ^ (8 * p.n) := by rw [hm, pow_mul]; rfl
      _ = p.wots_w ^ p.wots_len1 := by rw [g.w_eq, ← pow_mul, ← g.len1_mul, Nat.mul_comm]
  · rw [digitValue_digits, Nat.mod_eq_of_lt]
    refine Nat.lt_of_le_of_lt (sum_le_of_lt _ _) ?_
    rw [digits_length]
    exact g.csum_fits

/-- `base_w` with checked reads of its input, wots.c:60-79 (the same loop as `baseWLoop`; `none` is a read outside
`input`). -/
def baseWChecked (p : Params) (input : Bytes) : Nat → Nat → Nat → Nat → Option (List Nat)
  | 0, _, _, _ => some []
  | k + 1, inp, total, bits => do
    let s : Nat × Nat × Nat ← (if bits = 0 then (input[inp]?).map (fun b => (inp + 1, b.toNat, bits + 8))
      else some (inp, total, bits) : Option (Nat × Nat × Nat))
    let bits := s.2.2 - p.wots_log_w
    let rest ← baseWChecked p input k s.1 s.2.1 bits
    some (((s.2.1 >>> bits) &&& (p.wots_w - 1)) :: rest)

theorem baseWChecked_eq {p : Params} (hw : p.wots_log_w = 2 ∨ p.wots_log_w = 4) (input : Bytes) :
    ∀ (k inp total bits : Nat), bits % p.wots_log_w = 0 → bits ≤ 8 →
      k * p.wots_log_w ≤ bits + 8 * (input.length - inp) → inp ≤ input.length →
      baseWChecked p input k inp total bits = some (baseWLoop p input k inp total bits) := by
  intro k
  induction k with
  | zero => intros; rfl
  | succ k ih =>
    intro inp total bits h1 h2 h3 h4
    have hlw : 0 < p.wots_log_w ∧ p.wots_log_w ≤ 8 ∧ 8 % p.wots_log_w = 0 := by rcases hw with h | h <;> simp [h]
    rw [Nat.add_mul, one_mul] at h3
    by_cases hb : bits = 0
    · subst hb
      have hlt : inp < input.length := by omega
      rw [baseWChecked, baseWLoop, if_pos rfl, if_pos rfl]
      simp only [List.getElem?_eq_getElem hlt, Option.map_some, Option.bind_eq_bind, Option.bind_some, zero_add]
      rw [ih (inp + 1) _ (8 - p.wots_log_w) ?_ (by omega) (by omega) (by omega)]
      · simp [List.getD_eq_getElem?_getD, List.getElem?_eq_getElem hlt]
      · rcases hw with h | h <;> rw [h]
    · have hge : p.wots_log_w ≤ bits := Nat.le_of_dvd (by omega) (Nat.dvd_of_mod_eq_zero h1)
      rw [baseWChecked, baseWLoop, if_neg hb, if_neg hb]
      simp only [Option.bind_eq_bind, Option.bind_some]
      rw [ih inp _ (bits - p.wots_log_w) ?_ (by omega) (by omega) (by omega)]
      · rfl
      · rw [← Nat.mod_eq_sub_mod hge]; exact h1

/-- **C06 (memory).**  `base_w` reads only inside its input, both for the message and for the checksum bytes. -/
theorem C06_base_w_in_bounds (p : Params) (g : p.Good) (msg : Bytes) (hm : msg.length = p.n) (cs : Bytes)
    (hcs : cs.length = (p.wots_len2 * p.wots_log_w + 7) / 8) :
    baseWChecked p msg p.wots_len1 0 0 0 = some (baseW p p.wots_len1 msg) ∧
    baseWChecked p cs p.wots_len2 0 0 0 = some (baseW p p.wots_len2 cs) := by
  constructor
  · exact baseWChecked_eq g.logw_mem _ _ _ _ _ (by simp) (by omega) (by have := g.len1_mul; omega) (by omega)
  · exact baseWChecked_eq g.logw_mem _ _ _ _ _ (by simp) (by omega) (by omega) (by omega)

/-! ### C07 -/

/-- **C07.**  For two different messages some chain of the second one is strictly shorter.  Holds for every consistent
parameter structure (w = 4 or 16), in particular for all OIDs. -/
theorem C07_checksum_partial (p : Params) (g : p.Good) (m1 m2 : Bytes) (h1 : m1.length = p.n) (h2 : m2.length = p.n)
    (hne : m1 ≠ m2) :
    ∃ j < p.wots_len, (chainLengths p m2).getD j 0 < (chainLengths p m1).getD j 0 := by
  by_contra hcon
  push Not at hcon
  obtain ⟨d1, c1, e1, l1, k1, b1, v1, w1⟩ := C06_digits p g m1 h1
  obtain ⟨d2, c2, e2, l2, k2, b2, v2, w2⟩ := C06_digits p g m2 h2
  rw [e1] at hcon b1
  rw [e2] at hcon b2
  have hall : ∀ j, (d1 ++ c1).getD j 0 ≤ (d2 ++ c2).getD j 0 := by
    intro j
    by_cases hj : j < p.wots_len
    · exact hcon j hj
    · have : (d1 ++ c1).length ≤ j := by have := g.len_eq; simp only [List.length_append]; omega
      rw [List.getD_eq_getElem?_getD, List.getElem?_eq_none this]; simp
  have hd : ∀ j, d1.getD j 0 ≤ d2.getD j 0 := by
    intro j
    by_cases hj : j < p.wots_len1
    · have := hall j
      rwa [List.getD_append _ _ _ _ (by omega), List.getD_append _ _ _ _ (by omega)] at this
    · rw [List.getD_eq_getElem?_getD, List.getElem?_eq_none (by omega)]; simp
  have hc : ∀ j, c1.getD j 0 ≤ c2.getD j 0 := by
    intro j
    have := hall (p.wots_len1 + j)
    rwa [List.getD_append_right _ _ _ _ (by omega), List.getD_append_right _ _ _ _ (by omega), l1, l2,
      Nat.add_sub_cancel_left] at this
  obtain ⟨s1, s2⟩ := csum_anti (w := p.wots_w) d1 d2 (by omega) hd (fun x hx => b2 x (by simp [hx]))
  have s3 : digitValue p.wots_w c1 ≤ digitValue p.wots_w c2 := foldl_mono c1 c2 0 0 (by omega) (Nat.le_refl _) hc
  rw [w1, w2] at s3
  have hdd := s2 (by omega)
  apply hne
  apply toNat_injective (by omega)
  rw [← v1, ← v2, hdd]

-- Non-vacuity: a Good parameter structure and two messages.
example : ∃ p, parseXmss 1 = some p ∧ p.Good := ⟨_, rfl, xmss_parse_good (oid := 1) rfl⟩

/-- The parameters that `xmss_xmssmt_initialize_params` computes for w = 256 (documented as supported in params.h:25
and handled by params.c:728-731), n = 32. -/
def params256 : Params :=
  (initializeParams slowSkBytes .sha2 32 32 10 1 256 0).getD default

/-- **C07 is false for w = 256**: the checksum is shifted left by 8 and truncated to 2 bytes, so that only its low byte
remains.  These two messages are a counterexample: no chain of the second is shorter, so a signature of the first one
can be extended to the second one by hashing forward. -/
theorem C07_fails_for_w256 : initializeParams slowSkBytes .sha2 32 32 10 1 256 0 = some params256 ∧
    ∃ m1 m2 : Bytes, m1.length = 32 ∧ m2.length = 32 ∧ m1 ≠ m2 ∧
      ∀ j < params256.wots_len, (chainLengths params256 m1).getD j 0 ≤ (chainLengths params256 m2).getD j 0 := by
  refine ⟨by decide, [0, 254] ++ List.replicate 30 255, List.replicate 32 255, by decide, by decide, by decide, ?_⟩
  decide +kernel

/-! ### C08 -/

theorem IsOts.of_addr (a : Addr) (h : a.a3 = 0) :
    IsOts a a.a0.toNat (a.a1.toNat * 2 ^ 32 + a.a2.toNat) a.a4.toNat := by
  refine ⟨by simp, ?_, ?_, by rw [h]; rfl, by simp⟩
  · have : (a.a1.toNat * 2 ^ 32 + a.a2.toNat) >>> 32 = a.a1.toNat := by
      have := a.a2.toNat_lt
      rw [Nat.shiftRight_eq_div_pow]; omega
    rw [this]; simp
  · apply UInt32.toNat_inj.mp
    have := a.a2.toNat_lt
    simp only [UInt32.toNat_ofNat']
    omega

theorem wotsPkFromSig_wotsSig (S : Rfc.Suite) (hw : 0 < S.w) (sk seed M : Rfc.Bytes) (l t o : Nat) :
    S.wotsPkFromSig seed M (S.wotsSig sk seed M l t o) l t o = S.wotsPk sk seed l t o := by
  simp only [Rfc.Suite.wotsPkFromSig, Rfc.Suite.wotsPk]
  apply List.map_congr_left
  intro j hj
  have hj := List.mem_range.mp hj
  have hd := wotsDigits_getD_lt S hw M j
  have : (S.wotsSig sk seed M l t o).getD j [] = S.chain seed (Rfc.Suite.otsAdrs l t o j) (S.wotsSk sk seed l t o j) 0
      ((S.wotsDigits M).getD j 0) := by
    simp [Rfc.Suite.wotsSig, List.getD_eq_getElem?_getD, hj]
  rw [this]
  have e := chain_add S seed (Rfc.Suite.otsAdrs l t o j) (S.wotsSk sk seed l t o j) 0 ((S.wotsDigits M).getD j 0)
    (S.w - 1 - (S.wotsDigits M).getD j 0)
  rw [Nat.zero_add] at e
  rw [← e]
  congr 1; omega

/-- **C08.**  The public key recovered from a WOTS signature of `msg` is the generated public key.  The three calls may
start from addresses that differ in the chain, hash and key-and-mask words, as they do in the code. -/
theorem C08_wots_round_trip (H : Bytes → Bytes) (p : Params) (g : p.Good) (msg seed pubSeed : Bytes)
    (hm : msg.length = p.n) (a a' a'' : Addr) (ha : a.a3 = 0)
    (h1 : a'.a0 = a.a0 ∧ a'.a1 = a.a1 ∧ a'.a2 = a.a2 ∧ a'.a3 = a.a3 ∧ a'.a4 = a.a4)
    (h2 : a''.a0 = a.a0 ∧ a''.a1 = a.a1 ∧ a''.a2 = a.a2 ∧ a''.a3 = a.a3 ∧ a''.a4 = a.a4) :
    (wotsPkFromSig H p (wotsSign H p msg seed pubSeed a).1 msg pubSeed a').1 = (wotsPkgen H p seed pubSeed a'').1 := by
  have i := IsOts.of_addr a ha
  have i' : IsOts a' a.a0.toNat (a.a1.toNat * 2 ^ 32 + a.a2.toNat) a.a4.toNat := by
    obtain ⟨x0, x1, x2, x3, x4⟩ := h1
    exact ⟨x0.trans i.h0, x1.trans i.h1, x2.trans i.h2, x3.trans i.h3, x4.trans i.h4⟩
  have i'' : IsOts a'' a.a0.toNat (a.a1.toNat * 2 ^ 32 + a.a2.toNat) a.a4.toNat := by
    obtain ⟨x0, x1, x2, x3, x4⟩ := h2
    exact ⟨x0.trans i.h0, x1.trans i.h1, x2.trans i.h2, x3.trans i.h3, x4.trans i.h4⟩
  have s := wotsSign_eq (H := H) g seed pubSeed hm a i
  rw [s.1, (wotsPkFromSig_eq (H := H) g pubSeed hm (by rw [wotsSig_len, g.len_eq']) a' i').1,
    (wotsPkgen_eq (H := H) g seed pubSeed a'' i'').1, wotsPkFromSig_wotsSig _ g.w_pos]

example : (Addr.zero).a3 = 0 := rfl

/-! ### C09 -/

/-- Two chains that meet after `k` more steps either coincide now or collide on the way. -/
theorem chain_merge (S : Rfc.Suite) (seed : Rfc.Bytes) (adrs : Nat → Nat → Rfc.Bytes) (i : Nat) :
    ∀ (k : Nat) (x y : Rfc.Bytes), S.chain seed adrs x i k = S.chain seed adrs y i k →
      x = y ∨ ∃ s < k, S.chain seed adrs x i s ≠ S.chain seed adrs y i s ∧
        S.chainStep seed adrs (i + s) (S.chain seed adrs x i s) =
          S.chainStep seed adrs (i + s) (S.chain seed adrs y i s) := by
  intro k
  induction k with
  | zero => intro x y h; exact Or.inl h
  | succ k ih =>
    intro x y h
    by_cases he : S.chain seed adrs x i k = S.chain seed adrs y i k
    · rcases ih x y he with h' | ⟨s, hs, h'⟩
      · exact Or.inl h'
      · exact Or.inr ⟨s, by omega, h'⟩
    · exact Or.inr ⟨k, by omega, he, h⟩

theorem wotsPkFromSig_getD (S : Rfc.Suite) (seed M : Rfc.Bytes) (sig : List Rfc.Bytes) (l t o j : Nat) (hj : j < S.len) :
    (S.wotsPkFromSig seed M sig l t o).getD j [] = S.chain seed (Rfc.Suite.otsAdrs l t o j) (sig.getD j [])
      ((S.wotsDigits M).getD j 0) (S.w - 1 - (S.wotsDigits M).getD j 0) := by
  simp [Rfc.Suite.wotsPkFromSig, List.getD_eq_getElem?_getD, hj]

/-- **C09.**  Suppose `sig'` on a different message leads the verifier to the same WOTS public key as the honest
signature `sig` of `msg`.  Then for some chain `j` the forger's value sits at a strictly earlier position than the
published one, and either hashing it forward yields the published value of the honest signature, or at some later
position the two chains have different values with the same successor (an explicit collision of the chaining
function at that address). -/
theorem C09_wots_forgery (H : Bytes → Bytes) (p : Params) (g : p.Good) (seed pubSeed msg msg' : Bytes)
    (sig' : List Bytes) (a : Addr) (ha : a.a3 = 0) (hm : msg.length = p.n) (hm' : msg'.length = p.n)
    (hs : sig'.length = p.wots_len) (hne : msg ≠ msg')
    (hforge : (wotsPkFromSig H p sig' msg' pubSeed a).1 =
      (wotsPkFromSig H p (wotsSign H p msg seed pubSeed a).1 msg pubSeed a).1) :
    let adrs := Rfc.Suite.otsAdrs a.a0.toNat (a.a1.toNat * 2 ^ 32 + a.a2.toNat) a.a4.toNat
    let S := suiteOf p H
    ∃ j < p.wots_len, ∃ b b' : Nat, b = (chainLengths p msg).getD j 0 ∧ b' = (chainLengths p msg').getD j 0 ∧
      b' < b ∧ b < p.wots_w ∧
      let pub := (wotsSign H p msg seed pubSeed a).1.getD j []
      let forged := S.chain pubSeed (adrs j) (sig'.getD j []) b' (b - b')
      (forged = pub ∨
        ∃ s, b + s < p.wots_w - 1 ∧
          S.chain pubSeed (adrs j) forged b s ≠ S.chain pubSeed (adrs j) pub b s ∧
          S.chainStep pubSeed (adrs j) (b + s) (S.chain pubSeed (adrs j) forged b s) =
            S.chainStep pubSeed (adrs j) (b + s) (S.chain pubSeed (adrs j) pub b s)) := by
  intro adrs S
  have i := IsOts.of_addr a ha
  obtain ⟨j, hj, hlt⟩ := C07_checksum_partial p g msg msg' hm hm' hne
  refine ⟨j, hj, _, _, rfl, rfl, hlt, ?_, ?_⟩
  · rw [chainLengths_eq g H hm]; exact wotsDigits_getD_lt S g.w_pos _ _
  intro pub forged
  rw [(wotsPkFromSig_eq (H := H) g pubSeed hm' hs a i).1, (wotsSign_eq (H := H) g seed pubSeed hm a i).1,
    (wotsPkFromSig_eq (H := H) g pubSeed hm (by rw [wotsSig_len, g.len_eq']) a i).1] at hforge
  have hjS : j < S.len := by rw [g.len_eq' H]; exact hj
  have hj2 := congrArg (fun l => l.getD j []) hforge
  rw [wotsPkFromSig_getD _ _ _ _ _ _ _ _ hjS, wotsPkFromSig_getD _ _ _ _ _ _ _ _ hjS] at hj2
  set b := (chainLengths p msg).getD j 0 with hb
  set b' := (chainLengths p msg').getD j 0 with hb'
  have eb : (S.wotsDigits msg).getD j 0 = b := by rw [hb, chainLengths_eq g H hm]
  have eb' : (S.wotsDigits msg').getD j 0 = b' := by rw [hb', chainLengths_eq g H hm']
  have hbw : b < p.wots_w := by rw [← eb]; exact wotsDigits_getD_lt S g.w_pos _ _
  have hpub : pub = ((suiteOf p H).wotsSig seed pubSeed msg a.a0.toNat (a.a1.toNat * 2 ^ 32 + a.a2.toNat)
      a.a4.toNat).getD j [] := by
    show (wotsSign H p msg seed pubSeed a).1.getD j [] = _
    rw [(wotsSign_eq (H := H) g seed pubSeed hm a i).1]
  have key : S.chain pubSeed (adrs j) forged b (p.wots_w - 1 - b) = S.chain pubSeed (adrs j) pub b (p.wots_w - 1 - b) := by
    rw [hpub]
    have e := chain_add S pubSeed (adrs j) (sig'.getD j []) b' (b - b') (p.wots_w - 1 - b)
    rw [show b' + (b - b') = b by omega, show b - b' + (p.wots_w - 1 - b) = p.wots_w - 1 - b' by omega] at e
    show S.chain pubSeed (adrs j) (S.chain pubSeed (adrs j) (sig'.getD j []) b' (b - b')) b (p.wots_w - 1 - b) = _
    rw [← e, ← eb, ← eb']
    exact hj2
  rcases chain_merge S pubSeed (adrs j) b _ _ _ key with h | ⟨s, hs, h1, h2⟩
  · exact Or.inl h
  · exact Or.inr ⟨s, by omega, h1, h2⟩

end Xmss
