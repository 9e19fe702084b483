import Verif.Proof.Hash
/-
WOTS: the model computes the RFC values.
-/
namespace Xmss

/-! ### base_w -/

/-- The `j`-th output of `base_w` (with `q = 8 / log_w` digits per byte). -/
def baseWDigit (p : Params) (input : Bytes) (j : Nat) : Nat :=
  let q := 8 / p.wots_log_w
  ((input.getD (j / q) 0).toNat >>> (8 - p.wots_log_w * (j % q + 1))) &&& (p.wots_w - 1)

theorem baseWLoop_eq {p : Params} (hl : p.wots_log_w = 2 ∨ p.wots_log_w = 4) (input : Bytes) (k j : Nat)
    (inp total bits : Nat)
    (hs : (j % (8 / p.wots_log_w) = 0 ∧ bits = 0 ∧ inp = j / (8 / p.wots_log_w)) ∨
      (j % (8 / p.wots_log_w) ≠ 0 ∧ bits = 8 - p.wots_log_w * (j % (8 / p.wots_log_w)) ∧
        inp = j / (8 / p.wots_log_w) + 1 ∧ total = (input.getD (j / (8 / p.wots_log_w)) 0).toNat)) :
    baseWLoop p input k inp total bits = (List.range' j k).map (baseWDigit p input) := by
  induction k generalizing j inp total bits with
  | zero => rfl
  | succ k ih =>
    rw [List.range'_succ, List.map_cons]
    have hq : p.wots_log_w * (8 / p.wots_log_w) = 8 := by rcases hl with h | h <;> rw [h]
    have hlp : 0 < p.wots_log_w := by omega
    have hq2 : 2 ≤ 8 / p.wots_log_w := by rcases hl with h | h <;> simp [h]
    rw [baseWLoop]
    generalize hqd : 8 / p.wots_log_w = q at *
    have hdm := Nat.div_add_mod j q
    have hml : j % q < q := Nat.mod_lt _ (by omega)
    have hj1 : (j + 1) % q = if j % q + 1 = q then 0 else j % q + 1 := by
      split
      · next h =>
        have : j + 1 = q * (j / q + 1) := by rw [Nat.mul_add, mul_one]; omega
        rw [this, Nat.mul_mod_right]
      · next h =>
        have : j + 1 = q * (j / q) + (j % q + 1) := by omega
        rw [this, Nat.mul_add_mod, Nat.mod_eq_of_lt (by omega)]
    have hj2 : (j + 1) / q = if j % q + 1 = q then j / q + 1 else j / q := by
      split
      · next h =>
        have : j + 1 = q * (j / q + 1) := by rw [Nat.mul_add, mul_one]; omega
        rw [this, Nat.mul_div_cancel_left _ (by omega)]
      · next h =>
        have : j + 1 = q * (j / q) + (j % q + 1) := by omega
        rw [this, Nat.mul_add_div (by omega), Nat.div_eq_of_lt (by omega : j % q + 1 < q), add_zero]
    -- the state after reading a byte, if one is read
    have key : ∀ (b : Nat), 0 < b → b = 8 - p.wots_log_w * (j % q) →
        ((input.getD (j / q) 0).toNat >>> (b - p.wots_log_w) &&& (p.wots_w - 1)) ::
          baseWLoop p input k (j / q + 1) (input.getD (j / q) 0).toNat (b - p.wots_log_w) =
        baseWDigit p input j :: List.map (baseWDigit p input) (List.range' (j + 1) k) := by
      intro b hb hbe
      have hbb : b - p.wots_log_w = 8 - p.wots_log_w * (j % q + 1) := by rw [mul_add, mul_one]; omega
      congr 1
      · simp only [baseWDigit, hqd, hbb]
      · apply ih
        rw [hj1, hj2]
        by_cases hc : j % q + 1 = q
        · left
          rw [if_pos hc, if_pos hc, hbb, hc, hq]
          simp
        · right
          rw [if_neg hc, if_neg hc, hbb]
          simp
    rcases hs with ⟨h0, hb, hi⟩ | ⟨h0, hb, hi, ht⟩
    · rw [if_pos hb]
      subst hb hi
      have := key 8 (by omega) (by rw [h0]; omega)
      simpa using this
    · have hle : p.wots_log_w * (j % q + 1) ≤ 8 := by rw [← hq]; exact Nat.mul_le_mul_left _ (by omega)
      have hb0 : 0 < bits := by rw [mul_add, mul_one] at hle; omega
      rw [if_neg (by omega)]
      subst hi ht
      exact key bits hb0 hb

theorem baseW_eq {p : Params} (hl : p.wots_log_w = 2 ∨ p.wots_log_w = 4) (k : Nat) (input : Bytes) :
    baseW p k input = (List.range k).map (baseWDigit p input) := by
  rw [baseW, baseWLoop_eq hl input k 0 0 0 0 (by left; simp), List.range_eq_range']

/-- Digits of a byte string: digit `j` of the model is digit `j` of the big-endian number. -/
theorem baseWDigit_eq {p : Params} (hl : p.wots_log_w = 2 ∨ p.wots_log_w = 4) (hw : p.wots_w = 2 ^ p.wots_log_w)
    (input : Bytes) (j : Nat) (hj : j < input.length * (8 / p.wots_log_w)) :
    baseWDigit p input j =
      Rfc.toNat input / p.wots_w ^ (input.length * (8 / p.wots_log_w) - 1 - j) % p.wots_w := by
  have hq : p.wots_log_w * (8 / p.wots_log_w) = 8 := by rcases hl with h | h <;> rw [h]
  have hq2 : 2 ≤ 8 / p.wots_log_w := by rcases hl with h | h <;> simp [h]
  unfold baseWDigit
  generalize hqd : 8 / p.wots_log_w = q at *
  have hdm := Nat.div_add_mod j q
  have hml : j % q < q := Nat.mod_lt _ (by omega)
  have hjl : j / q < input.length := Nat.div_lt_of_lt_mul (by rwa [mul_comm] at hj)
  set a := j / q
  set r := j % q
  -- split the string around byte a
  have hsp : input = input.take a ++ ([input.getD a 0] ++ input.drop (a + 1)) := by
    have h1 : [input.getD a 0] ++ input.drop (a + 1) = input.drop a := by
      rw [List.drop_eq_getElem_cons hjl]; simp [List.getD_eq_getElem?_getD, List.getElem?_eq_getElem hjl]
    rw [h1, List.take_append_drop]
  set b := input.getD a 0
  set c := input.drop (a + 1) with hc
  have hcl : c.length = input.length - (a + 1) := by simp [hc]
  have hval : Rfc.toNat input = (Rfc.toNat (input.take a) * 256 + b.toNat) * 256 ^ c.length + Rfc.toNat c := by
    conv_lhs => rw [hsp]
    rw [toNat_append, toNat_append]
    have : Rfc.toNat [b] = b.toNat := by simp [Rfc.toNat]
    rw [this]
    simp only [List.length_append, List.length_singleton]
    ring
  have hexp : input.length * q - 1 - j = q * c.length + (q - 1 - r) := by
    have h1 : input.length * q = q * (a + 1) + q * c.length := by
      rw [hcl, ← Nat.mul_add, mul_comm]; congr 1; omega
    rw [Nat.mul_add, mul_one] at h1
    omega
  have h256 : p.wots_w ^ q = 256 := by rw [hw, ← pow_mul, hq]; norm_num
  rw [hexp, pow_add, pow_mul, h256, ← Nat.div_div_eq_div_mul, hval]
  have hclt := toNat_lt c
  have hd : ((Rfc.toNat (input.take a) * 256 + b.toNat) * 256 ^ c.length + Rfc.toNat c) / 256 ^ c.length =
      Rfc.toNat (input.take a) * 256 + b.toNat := by
    rw [mul_comm, Nat.mul_add_div (by positivity), Nat.div_eq_of_lt hclt, add_zero]
  rw [hd]
  have hmask : ∀ x, x &&& (p.wots_w - 1) = x % p.wots_w := by
    intro x; rw [hw]; exact Nat.and_two_pow_sub_one_eq_mod x _
  rw [hmask, Nat.shiftRight_eq_div_pow]
  have hbits : 2 ^ (8 - p.wots_log_w * (r + 1)) = p.wots_w ^ (q - 1 - r) := by
    rw [hw, ← pow_mul]; congr 1
    have : p.wots_log_w * (r + 1) + p.wots_log_w * (q - 1 - r) = 8 := by
      rw [← Nat.mul_add, ← hq]; congr 1; omega
    omega
  rw [hbits]
  have h256' : 256 = p.wots_w ^ (q - 1 - r) * (p.wots_w * p.wots_w ^ r) := by
    rw [← h256, ← pow_succ', ← pow_add]; congr 1; omega
  have hwp : 0 < p.wots_w := by rw [hw]; positivity
  have : Rfc.toNat (input.take a) * 256 + b.toNat =
      p.wots_w ^ (q - 1 - r) * (p.wots_w * (p.wots_w ^ r * Rfc.toNat (input.take a))) + b.toNat := by
    rw [h256']; ring
  rw [this, Nat.mul_add_div (by positivity), Nat.mul_add_mod]

theorem baseW_digits {p : Params} (hl : p.wots_log_w = 2 ∨ p.wots_log_w = 4) (hw : p.wots_w = 2 ^ p.wots_log_w)
    (k : Nat) (input : Bytes) (hk : k * p.wots_log_w = 8 * input.length) :
    baseW p k input = Rfc.digits p.wots_w k (Rfc.toNat input) := by
  have hkq : k = input.length * (8 / p.wots_log_w) := by
    rcases hl with h | h <;> rw [h] at hk ⊢ <;> omega
  rw [baseW_eq hl, Rfc.digits]
  apply List.map_congr_left
  intro j hj
  have hj := List.mem_range.mp hj
  rw [baseWDigit_eq hl hw input j (hkq ▸ hj), ← hkq]

/-! ### checksum -/

theorem csumLoop_eq (p : Params) (l : List Nat) (c : Nat) :
    csumLoop p l c = c + (l.map fun x => p.wots_w - 1 - x).sum := by
  induction l generalizing c with
  | nil => simp [csumLoop]
  | cons x l ih => rw [csumLoop, ih]; simp; omega

theorem digits_length (w k x : Nat) : (Rfc.digits w k x).length = k := by simp [Rfc.digits]

theorem digits_lt {w : Nat} (hw : 0 < w) {k x y : Nat} (h : y ∈ Rfc.digits w k x) : y < w := by
  simp only [Rfc.digits, List.mem_map] at h
  obtain ⟨i, _, rfl⟩ := h
  exact Nat.mod_lt _ hw

theorem sum_le_of_lt (w : Nat) (l : List Nat) : (l.map fun x => w - 1 - x).sum ≤ l.length * (w - 1) := by
  induction l with
  | nil => simp
  | cons x l ih => simp only [List.map_cons, List.sum_cons, List.length_cons, Nat.add_mul, one_mul]; omega

theorem wotsChecksum_eq {p : Params} (g : p.Good) {l : List Nat} (hlen : l.length = p.wots_len1) :
    wotsChecksum p l = Rfc.digits p.wots_w p.wots_len2 ((l.map fun x => p.wots_w - 1 - x).sum) := by
  have hl := g.logw_mem
  have hw := g.w_eq
  unfold wotsChecksum
  rw [csumLoop_eq, zero_add]
  set c := (l.map fun x => p.wots_w - 1 - x).sum with hcdef
  have hclt : c < p.wots_w ^ p.wots_len2 := by
    have := sum_le_of_lt p.wots_w l
    rw [hlen] at this
    exact lt_of_le_of_lt this g.csum_fits
  simp only []
  set s := 8 - (p.wots_len2 * p.wots_log_w) % 8 with hs
  set B := (p.wots_len2 * p.wots_log_w + 7) / 8 with hB
  have hmod := g.len2_mod
  have h8B : 8 * B = p.wots_len2 * p.wots_log_w + s := by omega
  rw [baseW_eq hl, Rfc.digits]
  apply List.map_congr_left
  intro j hj
  have hj : j < p.wots_len2 := List.mem_range.mp hj
  have hq : p.wots_log_w * (8 / p.wots_log_w) = 8 := by rcases hl with h | h <;> rw [h]
  have hlp : 0 < p.wots_log_w := by omega
  have hBq : p.wots_log_w * (B * (8 / p.wots_log_w)) = 8 * B := by rw [mul_left_comm, hq, mul_comm]
  have hlen : (ullToBytes B (c <<< s)).length = B := ullToBytes_length _ _
  have hge : p.wots_len2 ≤ B * (8 / p.wots_log_w) := by
    apply Nat.le_of_mul_le_mul_left _ hlp
    rw [hBq, h8B, mul_comm]; omega
  rw [baseWDigit_eq hl hw _ _ (by rw [hlen]; omega), hlen, ullToBytes_eq, toNat_toByte]
  have hpow : 256 ^ B = p.wots_w ^ p.wots_len2 * 2 ^ s := by
    rw [hw, ← pow_mul, ← pow_add, show (256 : Nat) = 2 ^ 8 by norm_num, ← pow_mul, h8B, mul_comm p.wots_log_w]
  have hlt : c * 2 ^ s < 256 ^ B := by rw [hpow]; exact (Nat.mul_lt_mul_right (Nat.two_pow_pos s)).mpr hclt
  rw [Nat.shiftLeft_eq, Nat.mod_eq_of_lt hlt]
  have hexp : p.wots_w ^ (B * (8 / p.wots_log_w) - 1 - j) = 2 ^ s * p.wots_w ^ (p.wots_len2 - 1 - j) := by
    rw [hw, ← pow_mul, ← pow_mul, ← pow_add]
    congr 1
    have e1 : p.wots_log_w * (B * (8 / p.wots_log_w) - 1 - j) + p.wots_log_w * (1 + j) = 8 * B := by
      rw [← Nat.mul_add, ← hBq]; congr 1; omega
    have e2 : p.wots_log_w * (p.wots_len2 - 1 - j) + p.wots_log_w * (1 + j) = p.wots_len2 * p.wots_log_w := by
      rw [← Nat.mul_add, mul_comm p.wots_len2]; congr 1; omega
    omega
  rw [hexp, ← Nat.div_div_eq_div_mul, Nat.mul_div_cancel _ (by positivity)]

theorem chainLengths_eq {p : Params} (g : p.Good) (H : Bytes → Bytes) {msg : Bytes} (hm : msg.length = p.n) :
    chainLengths p msg = (suiteOf p H).wotsDigits msg := by
  have h1 : baseW p p.wots_len1 msg = Rfc.digits p.wots_w p.wots_len1 (Rfc.toNat msg) :=
    baseW_digits g.logw_mem g.w_eq _ _ (by rw [hm]; exact g.len1_mul)
  simp only [chainLengths, h1, Rfc.Suite.wotsDigits, g.len1_eq, g.len2_eq]
  rw [wotsChecksum_eq g (by rw [digits_length])]
  rfl

theorem wotsDigits_length (S : Rfc.Suite) (M : Rfc.Bytes) : (S.wotsDigits M).length = S.len := by
  simp [Rfc.Suite.wotsDigits, digits_length, Rfc.Suite.len]

theorem wotsDigits_lt (S : Rfc.Suite) (hw : 0 < S.w) (M : Rfc.Bytes) {x : Nat} (h : x ∈ S.wotsDigits M) : x < S.w := by
  simp only [Rfc.Suite.wotsDigits, List.mem_append] at h
  rcases h with h | h <;> exact digits_lt hw h

theorem wotsDigits_getD_lt (S : Rfc.Suite) (hw : 0 < S.w) (M : Rfc.Bytes) (j : Nat) :
    (S.wotsDigits M).getD j 0 < S.w := by
  rw [List.getD_eq_getElem?_getD]
  cases h : (S.wotsDigits M)[j]? with
  | none => simpa using hw
  | some x =>
    simp only [Option.getD_some]
    exact wotsDigits_lt S hw M (List.mem_of_getElem? h)

/-! ### chains -/

theorem chain_add (S : Rfc.Suite) (seed : Rfc.Bytes) (adrs : Nat → Nat → Rfc.Bytes) (x : Rfc.Bytes) (i s t : Nat) :
    S.chain seed adrs x i (s + t) = S.chain seed adrs (S.chain seed adrs x i s) (i + s) t := by
  induction t with
  | zero => rfl
  | succ t ih => rw [← Nat.add_assoc, Rfc.Suite.chain, ih, Rfc.Suite.chain, Nat.add_assoc]

theorem chain_succ_left (S : Rfc.Suite) (seed : Rfc.Bytes) (adrs : Nat → Nat → Rfc.Bytes) (x : Rfc.Bytes) (i s : Nat) :
    S.chain seed adrs x i (s + 1) = S.chain seed adrs (S.chainStep seed adrs i x) (i + 1) s := by
  rw [Nat.add_comm s 1, chain_add]; rfl

variable {H : Bytes → Bytes} {p : Params}

theorem IsOts.setHash {a : Addr} {l t o : Nat} (h : IsOts a l t o) (i : Nat) : IsOts (setHashAddr a i) l t o :=
  ⟨h.h0, h.h1, h.h2, h.h3, h.h4⟩
theorem IsOts.setChain {a : Addr} {l t o : Nat} (h : IsOts a l t o) (i : Nat) : IsOts (setChainAddr a i) l t o :=
  ⟨h.h0, h.h1, h.h2, h.h3, h.h4⟩
theorem IsOts.setKM {a : Addr} {l t o : Nat} (h : IsOts a l t o) (i : Nat) : IsOts (setKeyAndMask a i) l t o :=
  ⟨h.h0, h.h1, h.h2, h.h3, h.h4⟩

theorem genChainLoop_eq {layer tree ots chain : Nat} (pubSeed : Bytes) (k i : Nat) (x : Bytes) (a : Addr)
    (h : IsOts a layer tree ots) (h5 : a.a5 = UInt32.ofNat chain) :
    (genChainLoop H p pubSeed k i x a).1 =
      (suiteOf p H).chain pubSeed (Rfc.Suite.otsAdrs layer tree ots chain) x i k ∧
    IsOts (genChainLoop H p pubSeed k i x a).2 layer tree ots := by
  induction k generalizing i x a with
  | zero => exact ⟨rfl, h⟩
  | succ k ih =>
    rw [genChainLoop, chain_succ_left]
    have h1 := thashF_ots (H := H) (p := p) (h.setHash i) h5 (rfl : (setHashAddr a i).a6 = UInt32.ofNat i) x pubSeed
    have ha := thashF_addr (H := H) (p := p) x pubSeed (setHashAddr a i)
    have := ih (i + 1) (thashF H p x pubSeed (setHashAddr a i)).1 (thashF H p x pubSeed (setHashAddr a i)).2
      (by rw [ha]; exact ⟨h.h0, h.h1, h.h2, h.h3, h.h4⟩) (by rw [ha]; exact h5)
    rw [h1] at this
    simpa only [h1] using this

theorem genChain_eq {layer tree ots chain : Nat} (pubSeed : Bytes) (start steps : Nat) (x : Bytes) (a : Addr)
    (h : IsOts a layer tree ots) (hle : start + steps ≤ p.wots_w) :
    (genChain H p x start steps pubSeed (setChainAddr a chain)).1 =
      (suiteOf p H).chain pubSeed (Rfc.Suite.otsAdrs layer tree ots chain) x start steps ∧
    IsOts (genChain H p x start steps pubSeed (setChainAddr a chain)).2 layer tree ots := by
  have h1 : min (start + steps) p.wots_w - start = steps := by omega
  unfold genChain
  rw [h1]
  exact genChainLoop_eq pubSeed steps start x _ (h.setChain chain) rfl

theorem chainsLoop_eq {layer tree ots : Nat} (pubSeed : Bytes) (cs : List (Bytes × Nat × Nat)) (i : Nat) (a : Addr)
    (h : IsOts a layer tree ots) (hle : ∀ c ∈ cs, c.2.1 + c.2.2 ≤ p.wots_w) :
    (chainsLoop H p pubSeed i cs a).1 = (List.range cs.length).map (fun j =>
      let c := cs.getD j ([], 0, 0)
      (suiteOf p H).chain pubSeed (Rfc.Suite.otsAdrs layer tree ots (i + j)) c.1 c.2.1 c.2.2) ∧
    IsOts (chainsLoop H p pubSeed i cs a).2 layer tree ots := by
  induction cs generalizing i a with
  | nil => exact ⟨rfl, h⟩
  | cons c cs ih =>
    obtain ⟨x, start, steps⟩ := c
    have h1 := genChain_eq (H := H) (chain := i) pubSeed start steps x a h (hle (x, start, steps) (by simp))
    have h2 := ih (i + 1) _ h1.2 (fun c hc => hle c (by simp [hc]))
    rw [chainsLoop]
    refine ⟨?_, h2.2⟩
    simp only [h2.1, h1.1, List.length_cons, List.range_succ_eq_map, List.map_cons, List.map_map]
    congr 1
    apply List.map_congr_left
    intro j _
    have : i + 1 + j = i + (j + 1) := by omega
    simp [this]

/-! ### key expansion -/

theorem expandSeedLoop_eq {layer tree ots : Nat} (inseed pubSeed : Bytes) (k i : Nat) (a : Addr)
    (h : IsOts a layer tree ots) (h6 : a.a6 = UInt32.ofNat 0) (h7 : a.a7 = UInt32.ofNat 0) :
    (expandSeedLoop H p inseed pubSeed k i a).1 =
      (List.range k).map (fun j => (suiteOf p H).wotsSk inseed pubSeed layer tree ots (i + j)) ∧
    IsOts (expandSeedLoop H p inseed pubSeed k i a).2 layer tree ots := by
  induction k generalizing i a with
  | zero => exact ⟨rfl, h⟩
  | succ k ih =>
    rw [expandSeedLoop]
    have h2 := ih (i + 1) (setChainAddr a i) (h.setChain i) h6 h7
    refine ⟨?_, h2.2⟩
    simp only [h2.1, List.range_succ_eq_map, List.map_cons, List.map_map]
    congr 1
    · rw [prfKeygen_eq, (h.setChain i).bytes rfl h6 h7]; rfl
    · apply List.map_congr_left
      intro j _
      have : i + 1 + j = i + (j + 1) := by omega
      simp [this]

theorem expandSeed_eq {layer tree ots : Nat} (inseed pubSeed : Bytes) (a : Addr) (h : IsOts a layer tree ots) :
    (expandSeed H p inseed pubSeed a).1 =
      (List.range p.wots_len).map (fun j => (suiteOf p H).wotsSk inseed pubSeed layer tree ots j) ∧
    IsOts (expandSeed H p inseed pubSeed a).2 layer tree ots := by
  have := expandSeedLoop_eq (H := H) (p := p) inseed pubSeed p.wots_len 0 _ ((h.setHash 0).setKM 0) rfl rfl
  unfold expandSeed
  simpa using this

/-! ### WOTS key generation, signing, verification -/

theorem wotsPkgen_eq (g : p.Good) {layer tree ots : Nat} (seed pubSeed : Bytes) (a : Addr)
    (h : IsOts a layer tree ots) :
    (wotsPkgen H p seed pubSeed a).1 = (suiteOf p H).wotsPk seed pubSeed layer tree ots ∧
    IsOts (wotsPkgen H p seed pubSeed a).2 layer tree ots := by
  have h1 := expandSeed_eq (H := H) (p := p) seed pubSeed a h
  unfold wotsPkgen
  have h2 := chainsLoop_eq (H := H) (p := p) pubSeed
    ((expandSeed H p seed pubSeed a).1.map fun x => (x, 0, p.wots_w - 1)) 0 _ h1.2
    (by intro c hc; simp only [List.mem_map] at hc; obtain ⟨x, _, rfl⟩ := hc; have := g.w_pos; simp)
  refine ⟨?_, h2.2⟩
  rw [h2.1, h1.1, Rfc.Suite.wotsPk, g.len_eq']
  simp only [List.length_map, List.length_range]
  apply List.map_congr_left
  intro j hj
  have hj := List.mem_range.mp hj
  simp [List.getD_eq_getElem?_getD, List.getElem?_range hj, suiteOf]

theorem wotsSign_eq (g : p.Good) {layer tree ots : Nat} (seed pubSeed : Bytes) {msg : Bytes} (hm : msg.length = p.n)
    (a : Addr) (h : IsOts a layer tree ots) :
    (wotsSign H p msg seed pubSeed a).1 = (suiteOf p H).wotsSig seed pubSeed msg layer tree ots ∧
    IsOts (wotsSign H p msg seed pubSeed a).2 layer tree ots := by
  have h1 := expandSeed_eq (H := H) (p := p) seed pubSeed a h
  unfold wotsSign
  rw [chainLengths_eq g H hm]
  have hlen := wotsDigits_length (suiteOf p H) msg
  rw [g.len_eq'] at hlen
  have h2 := chainsLoop_eq (H := H) (p := p) pubSeed
    (List.zipWith (fun x l => (x, 0, l)) (expandSeed H p seed pubSeed a).1 ((suiteOf p H).wotsDigits msg)) 0 _ h1.2
    (by
      intro c hc
      rw [List.zipWith_eq_zipWith_take_min] at hc
      simp only [← List.map_uncurry_zip_eq_zipWith, List.mem_map] at hc
      obtain ⟨⟨x, l⟩, hx, rfl⟩ := hc
      have hl := List.mem_of_mem_take (List.of_mem_zip hx).2
      have := wotsDigits_lt (suiteOf p H) g.w_pos msg hl
      simp only [Function.uncurry]
      have hw : (suiteOf p H).w = p.wots_w := rfl
      omega)
  refine ⟨?_, h2.2⟩
  rw [h2.1, h1.1, Rfc.Suite.wotsSig, g.len_eq']
  simp only [List.length_zipWith, List.length_map, List.length_range, hlen, min_self]
  apply List.map_congr_left
  intro j hj
  have hj := List.mem_range.mp hj
  have hj' : j < ((suiteOf p H).wotsDigits msg).length := by omega
  simp [List.getD_eq_getElem?_getD, List.getElem?_range hj, List.getElem?_zipWith, List.getElem?_eq_getElem hj']

theorem wotsPkFromSig_eq (g : p.Good) {layer tree ots : Nat} (pubSeed : Bytes) {msg : Bytes} (hm : msg.length = p.n)
    {sig : List Bytes} (hs : sig.length = p.wots_len) (a : Addr) (h : IsOts a layer tree ots) :
    (wotsPkFromSig H p sig msg pubSeed a).1 = (suiteOf p H).wotsPkFromSig pubSeed msg sig layer tree ots ∧
    IsOts (wotsPkFromSig H p sig msg pubSeed a).2 layer tree ots := by
  unfold wotsPkFromSig
  rw [chainLengths_eq g H hm]
  have hlen := wotsDigits_length (suiteOf p H) msg
  rw [g.len_eq'] at hlen
  have h2 := chainsLoop_eq (H := H) (p := p) pubSeed
    (List.zipWith (fun x l => (x, l, p.wots_w - 1 - l)) sig ((suiteOf p H).wotsDigits msg)) 0 a h
    (by
      intro c hc
      rw [List.zipWith_eq_zipWith_take_min] at hc
      simp only [← List.map_uncurry_zip_eq_zipWith, List.mem_map] at hc
      obtain ⟨⟨x, l⟩, hx, rfl⟩ := hc
      have hl := List.mem_of_mem_take (List.of_mem_zip hx).2
      have := wotsDigits_lt (suiteOf p H) g.w_pos msg hl
      have hw : (suiteOf p H).w = p.wots_w := rfl
      simp only [Function.uncurry]
      omega)
  refine ⟨?_, h2.2⟩
  rw [h2.1, Rfc.Suite.wotsPkFromSig, g.len_eq']
  simp only [List.length_zipWith, hlen, hs, min_self]
  apply List.map_congr_left
  intro j hj
  have hj := List.mem_range.mp hj
  have hj' : j < ((suiteOf p H).wotsDigits msg).length := by omega
  have hj2 : j < sig.length := by omega
  simp [List.getD_eq_getElem?_getD, List.getElem?_zipWith, List.getElem?_eq_getElem hj',
    List.getElem?_eq_getElem hj2]
  rfl

end Xmss
