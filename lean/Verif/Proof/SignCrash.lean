import Verif.Model.SignCrash
import Verif.Props.SignThreads
import Verif.Props.Crash
/-
Proofs for C79: the keys and buffers that a sign call leaves when it is cut off.
-/
namespace Xmss

/-- The index stored in a key (without the OID). -/
def storedIndex (p : Params) (sk : Bytes) : Nat := Rfc.toNat (sk.take p.index_bytes)

/-- The seeds and the root stored in a key (without the OID). -/
def storedMaterial (p : Params) (sk : Bytes) : Bytes := (sk.drop p.index_bytes).take (4 * p.n)

/-- The part of the `sm` buffer that holds the randomizer, the one-time signatures and the authentication paths. -/
def signaturePart (p : Params) (sm : Bytes) : Bytes := (sm.take p.sig_bytes).drop p.index_bytes

/-- The call has written something of a signature, or has returned success. -/
def SignEvent.Released (p : Params) (e : SignEvent) : Prop := signaturePart p e.sm ≠ signaturePart p e.sm0 ∨ e.ret = some 0

namespace SignCrash

variable {f : Family} {p : Params} {H : Bytes → Bytes}

/-- What holds of every call, cut off or not. -/
structure EventOk (p : Params) (e : SignEvent) : Prop where
  len : e.after.length = e.before.length
  le : storedIndex p e.before ≤ storedIndex p e.after
  mat : storedIndex p e.after < 2 ^ p.full_height → storedMaterial p e.after = storedMaterial p e.before
  rel : e.Released p → storedIndex p e.before < storedIndex p e.after ∧ storedIndex p e.before < 2 ^ p.full_height

/-- The same for the key alone. -/
structure KeyOk (p : Params) (sk sk' : Bytes) : Prop where
  len : sk'.length = sk.length
  le : storedIndex p sk ≤ storedIndex p sk'
  mat : storedIndex p sk' < 2 ^ p.full_height → storedMaterial p sk' = storedMaterial p sk

theorem KeyOk.refl (sk : Bytes) : KeyOk p sk sk := ⟨rfl, Nat.le_refl _, fun _ => rfl⟩

theorem stored_eq (y : Nat) (hy : y < 256 ^ p.index_bytes) (r : Bytes) : storedIndex p (Rfc.toByte y p.index_bytes ++ r) = y := by
  rw [storedIndex, List.take_left' (toByte_length _ _), toNat_toByte, Nat.mod_eq_of_lt hy]

theorem material_eq (y : Nat) (r : Bytes) : storedMaterial p (Rfc.toByte y p.index_bytes ++ r) = r.take (4 * p.n) := by
  rw [storedMaterial, List.drop_left' (toByte_length _ _)]

theorem keyOk_of {x y : Nat} {r r' : Bytes} (hx : x < 256 ^ p.index_bytes) (hy : y < 256 ^ p.index_bytes) (hxy : x ≤ y)
    (hl : r'.length = r.length) (hm : y < 2 ^ p.full_height → r'.take (4 * p.n) = r.take (4 * p.n)) :
    KeyOk p (Rfc.toByte x p.index_bytes ++ r) (Rfc.toByte y p.index_bytes ++ r') := by
  refine ⟨by simp [toByte_length, hl], ?_, ?_⟩
  · rw [stored_eq x hx, stored_eq y hy]; exact hxy
  · rw [stored_eq y hy, material_eq, material_eq]; exact hm

/-- The key after the deletion. -/
def wipedKey (p : Params) : Bytes := List.replicate p.index_bytes 0xFF ++ List.replicate (p.sk_bytes - p.index_bytes) 0

theorem wipedKey_eq (p : Params) :
    wipedKey p = Rfc.toByte (256 ^ p.index_bytes - 1) p.index_bytes ++ List.replicate (p.sk_bytes - p.index_bytes) 0 := by
  rw [wipedKey, toByte_ff]

theorem wipedKey_length (h : p.index_bytes ≤ p.sk_bytes) : (wipedKey p).length = p.sk_bytes := by
  simp [wipedKey]; omega

theorem wipedKey_get {j : Nat} (hj : j < p.sk_bytes) : (wipedKey p)[j]? = some (if j < p.index_bytes then 0xFF else 0) := by
  rw [wipedKey]
  by_cases h : j < p.index_bytes
  · rw [if_pos h, List.getElem?_append_left (by simpa using h)]; simp [h]
  · rw [if_neg h, List.getElem?_append_right (by simpa using h), List.getElem?_replicate,
      if_pos (by rw [List.length_replicate]; omega)]

theorem set_up {A B : Bytes} (hl : A.length = B.length) {j : Nat} {a : UInt8} (ha : A[j]? = some a) :
    (A.take j ++ B.drop j).set j a = A.take (j + 1) ++ B.drop (j + 1) := by
  obtain ⟨h1, h2⟩ := List.getElem?_eq_some_iff.mp ha
  have hlen : (A.take j).length = j := by simp; omega
  have e : B.drop j = B[j]'(by omega) :: B.drop (j + 1) := List.drop_eq_getElem_cons (by omega)
  rw [e, List.set_append_right _ _ (by omega), hlen, Nat.sub_self, List.set_cons_zero, List.take_add_one, ha]
  simp

theorem set_down {A B : Bytes} (hl : A.length = B.length) {j : Nat} {b : UInt8} (hb : B[j]? = some b) :
    (A.take (j + 1) ++ B.drop (j + 1)).set j b = A.take j ++ B.drop j := by
  obtain ⟨h1, h2⟩ := List.getElem?_eq_some_iff.mp hb
  have e : B.drop j = b :: B.drop (j + 1) := by rw [List.drop_eq_getElem_cons h1, h2]
  have e2 : A.take (j + 1) = A.take j ++ [A[j]'(by omega)] := by
    rw [List.take_add_one, List.getElem?_eq_getElem (by omega)]; rfl
  have hlen : (A.take j).length = j := by simp; omega
  rw [e, e2, List.append_assoc, List.set_append_right _ _ (by omega), hlen, Nat.sub_self]
  simp

theorem ok_wiping (h40 : 2 ^ p.full_height < 256 ^ p.index_bytes) {x j : Nat} {rest sk : Bytes} (hx : x < 256 ^ p.index_bytes)
    (hr : p.index_bytes + rest.length = p.sk_bytes) (hj : j ≤ p.sk_bytes)
    (hsk : sk = (wipedKey p).take j ++ (Rfc.toByte x p.index_bytes ++ rest).drop j) :
    KeyOk p (Rfc.toByte x p.index_bytes ++ rest) sk := by
  subst hsk
  rw [wipedKey_eq]
  by_cases h : j ≤ p.index_bytes
  · rw [List.take_append_of_le_length (by rw [toByte_length]; exact h), List.drop_append_of_le_length (by rw [toByte_length]; exact h),
      ← List.append_assoc, torn_toByte h]
    exact keyOk_of hx (torn_lt h (by have : 0 < 256 ^ p.index_bytes := by positivity
                                     omega)) (torn_ge (by omega)) rfl (fun _ => rfl)
  · obtain ⟨i, rfl⟩ : ∃ i, j = p.index_bytes + i := ⟨j - p.index_bytes, by omega⟩
    rw [List.take_append, toByte_length, List.take_of_length_le (by rw [toByte_length]; omega), List.drop_append, toByte_length,
      List.drop_of_length_le (by rw [toByte_length]; omega), List.nil_append, List.append_assoc]
    refine keyOk_of hx (by have : 0 < 256 ^ p.index_bytes := by positivity
                           omega) (by omega) ?_ (fun h => by omega)
    simp; omega

/-- Index and rest of the key just before the new index is written. -/
def baseIdx (p : Params) (x : Nat) : Nat := if x < 2 ^ p.full_height - 1 then x else 256 ^ p.index_bytes - 1
def baseRest (p : Params) (x : Nat) (rest : Bytes) : Bytes :=
  if x < 2 ^ p.full_height - 1 then rest else List.replicate (p.sk_bytes - p.index_bytes) 0

theorem baseRest_length {x : Nat} {rest : Bytes} (hr : p.index_bytes + rest.length = p.sk_bytes) :
    (baseRest p x rest).length = rest.length := by
  rw [baseRest]; split
  · rfl
  · simp; omega

theorem baseIdx_lt (x : Nat) (hx : x < 256 ^ p.index_bytes) : baseIdx p x < 256 ^ p.index_bytes := by
  rw [baseIdx]; split <;> omega

theorem ok_stored (h40 : 2 ^ p.full_height < 256 ^ p.index_bytes) {x : Nat} {rest : Bytes} (hx : x < 2 ^ p.full_height)
    {r' : Bytes} (hl : r'.length = rest.length)
    (hm : r'.take (4 * p.n) = (baseRest p x rest).take (4 * p.n)) :
    KeyOk p (Rfc.toByte x p.index_bytes ++ rest) (Rfc.toByte (x + 1) p.index_bytes ++ r') := by
  refine keyOk_of (by omega) (by omega) (by omega) hl (fun h => ?_)
  rw [hm, baseRest, if_pos (by omega)]

/-- `tornIndex` from the deleted index: never below the new one. -/
theorem torn_ff {b new j : Nat} (hn : new < 256 ^ b) : new ≤ tornIndex b (256 ^ b - 1) new j := by
  rw [tornIndex]
  have hm : 0 < 256 ^ (b - j) := by positivity
  have hd : 256 ^ (b - j) ∣ 256 ^ b := pow_dvd_pow _ (by omega)
  obtain ⟨q, hq⟩ := hd
  generalize 256 ^ (b - j) = m at *
  have hq0 : 0 < q := by
    rcases Nat.eq_zero_or_pos q with rfl | h
    · omega
    · exact h
  have e : (256 ^ b - 1) % m = m - 1 := by
    obtain ⟨q', rfl⟩ : ∃ q', q = q' + 1 := ⟨q - 1, by omega⟩
    rw [hq, Nat.mul_succ, show m * q' + m - 1 = m * q' + (m - 1) by omega, Nat.mul_add_mod, Nat.mod_eq_of_lt (by omega)]
  rw [e]
  have h1 := Nat.div_add_mod new m
  have h2 := Nat.mod_lt new hm
  rw [Nat.mul_comm] at h1
  omega

theorem torn_ff_old {b old new j : Nat} (hj : j ≤ b) (hn : new < 256 ^ b) (ho : old = 256 ^ b - 1) : new ≤ tornIndex b new old j := by
  subst ho
  rw [tornIndex]
  have hm : 0 < 256 ^ (b - j) := by positivity
  have e : 256 ^ b = 256 ^ j * 256 ^ (b - j) := by rw [← pow_add]; congr 1; omega
  generalize 256 ^ (b - j) = m at *
  have h1 := Nat.div_add_mod new m
  have h3 : new / m ≤ (256 ^ b - 1) / m := Nat.div_le_div_right (by omega)
  have h4 := Nat.mul_le_mul_left m h3
  rw [Nat.mul_comm (_ / m)]
  omega

/-- The new index is written from the high byte on. -/
theorem ok_up (h40 : 2 ^ p.full_height < 256 ^ p.index_bytes) {x j : Nat} {rest : Bytes} (hx : x < 2 ^ p.full_height)
    (hr : p.index_bytes + rest.length = p.sk_bytes) (hj : j ≤ p.index_bytes) :
    KeyOk p (Rfc.toByte x p.index_bytes ++ rest)
      ((Rfc.toByte (x + 1) p.index_bytes).take j ++ (Rfc.toByte (baseIdx p x) p.index_bytes).drop j ++ baseRest p x rest) := by
  rw [torn_toByte hj]
  by_cases h : x < 2 ^ p.full_height - 1
  · rw [baseIdx, if_pos h, baseRest, if_pos h]
    exact keyOk_of (by omega) (torn_lt hj (by omega)) (torn_ge (by omega)) rfl (fun _ => rfl)
  · rw [baseIdx, if_neg h]
    have := torn_ff (b := p.index_bytes) (new := x + 1) (j := j) (by omega)
    exact keyOk_of (by omega) (torn_lt hj (by omega)) (by omega) (baseRest_length hr) (fun _ => by omega)

/-- The new index is written from the low byte on, and there is no carry. -/
theorem ok_down (h40 : 2 ^ p.full_height < 256 ^ p.index_bytes) {x j : Nat} {rest : Bytes} (hx : x < 2 ^ p.full_height)
    (hr : p.index_bytes + rest.length = p.sk_bytes) (hj : j ≤ p.index_bytes) (hc : x % 256 ≠ 255 ∨ 2 ^ p.full_height - 1 ≤ x) :
    KeyOk p (Rfc.toByte x p.index_bytes ++ rest)
      ((Rfc.toByte (baseIdx p x) p.index_bytes).take j ++ (Rfc.toByte (x + 1) p.index_bytes).drop j ++ baseRest p x rest) := by
  rw [torn_toByte hj]
  by_cases h : x < 2 ^ p.full_height - 1
  · rw [baseIdx, if_pos h, baseRest, if_pos h]
    have key : x ≤ tornIndex p.index_bytes (x + 1) x j := by
      rw [tornIndex]
      rcases Nat.eq_or_lt_of_le hj with rfl | hlt
      · simp
      · obtain ⟨i, hi⟩ : ∃ i, p.index_bytes - j = i + 1 := ⟨p.index_bytes - j - 1, by omega⟩
        rw [hi, pow_succ]
        have hm : 0 < 256 ^ i := by positivity
        have hne : x % 256 ≠ 255 := by omega
        have hdv : ¬ (256 ^ i * 256) ∣ x + 1 := by
          intro hd
          have : 256 ∣ x + 1 := (Dvd.intro_left _ rfl).trans hd
          omega
        have e1 : (x + 1) / (256 ^ i * 256) = x / (256 ^ i * 256) := Nat.succ_div_of_not_dvd hdv
        have e2 := Nat.div_add_mod (x + 1) (256 ^ i * 256)
        rw [e1, Nat.mul_comm] at e2
        omega
    exact keyOk_of (by omega) (torn_lt hj (by omega)) key rfl (fun _ => rfl)
  · rw [baseIdx, if_neg h]
    have := torn_ff_old (b := p.index_bytes) (new := x + 1) (j := j) hj (by omega) rfl
    exact keyOk_of (by omega) (torn_lt hj (by omega)) (by omega) (baseRest_length hr) (fun _ => by omega)

/-! ### The simple implementation -/

/-- The buffer has its length and its signature part. -/
def Same (p : Params) (sm0 sm : Bytes) : Prop := sm.length = sm0.length ∧ signaturePart p sm = signaturePart p sm0

theorem same_msg {sm0 sm m sm' : Bytes} (hs : Same p sm0 sm) (h : wr sm p.sig_bytes m = some sm') : Same p sm0 sm' := by
  refine ⟨(wr_length h).trans hs.1, ?_⟩
  have hl : p.sig_bytes + m.length ≤ sm.length := by
    by_contra hc
    simp [wr, hc] at h
  rw [wr_some hl] at h
  obtain rfl := Option.some.inj h
  rw [← hs.2, signaturePart, signaturePart, List.append_assoc, List.take_left' (by simp; omega)]

theorem same_idx {sm0 sm bs sm' : Bytes} {j : Nat} (hs : Same p sm0 sm) (hj : j + bs.length ≤ p.index_bytes)
    (h : wr sm j bs = some sm') : Same p sm0 sm' := by
  refine ⟨(wr_length h).trans hs.1, ?_⟩
  have hl : j + bs.length ≤ sm.length := by
    by_contra hc
    simp [wr, hc] at h
  rw [wr_some hl] at h
  obtain rfl := Option.some.inj h
  have e : ∀ b : Bytes, signaturePart p b = (b.drop p.index_bytes).take (p.sig_bytes - p.index_bytes) := fun b => by
    rw [signaturePart, List.drop_take]
  rw [← hs.2, e, e]
  congr 1
  have hl2 : (sm.take j ++ bs).length = j + bs.length := by simp; omega
  rw [List.drop_append, hl2, List.drop_of_length_le (by omega), List.nil_append, List.drop_drop]
  congr 1
  omega

/-- What holds while a call of the simple implementation runs. -/
def SInv (p : Params) (x : Nat) (rest sm0 : Bytes) (w : Bytes × SignThread) : Prop :=
  match w.2.pc with
  | .start => w.1 = Rfc.toByte x p.index_bytes ++ rest ∧ Same p sm0 w.2.sm
  | .reading got => w.1 = Rfc.toByte x p.index_bytes ++ rest ∧ got = (Rfc.toByte x p.index_bytes).take got.length ∧ Same p sm0 w.2.sm
  | .wiping idx j => idx = x ∧ 2 ^ p.full_height - 1 ≤ x ∧ j ≤ p.sk_bytes ∧ Same p sm0 w.2.sm ∧
      w.1 = (wipedKey p).take j ++ (Rfc.toByte x p.index_bytes ++ rest).drop j
  | .copying idx _ => idx = x ∧ x < 2 ^ p.full_height ∧ Same p sm0 w.2.sm ∧
      w.1 = Rfc.toByte (baseIdx p x) p.index_bytes ++ baseRest p x rest
  | .writing idx j => idx = x ∧ x < 2 ^ p.full_height ∧ Same p sm0 w.2.sm ∧ j ≤ p.index_bytes ∧
      w.1 = (Rfc.toByte (baseIdx p x) p.index_bytes).take j ++ (Rfc.toByte (x + 1) p.index_bytes).drop j ++ baseRest p x rest
  | .signing idx => idx = x ∧ x < 2 ^ p.full_height ∧ Same p sm0 w.2.sm ∧ w.1 = Rfc.toByte (x + 1) p.index_bytes ++ baseRest p x rest
  | .done r => (r = 0 ∧ x < 2 ^ p.full_height ∧ w.1 = Rfc.toByte (x + 1) p.index_bytes ++ baseRest p x rest) ∨
      (r = -2 ∧ 2 ^ p.full_height ≤ x ∧ Same p sm0 w.2.sm ∧ w.1 = wipedKey p)

theorem sinv_step (h8 : p.index_bytes ≤ 8) {x : Nat} {rest sm0 : Bytes} (hx : x < 256 ^ p.index_bytes)
    (hr : p.index_bytes + rest.length = p.sk_bytes) {w w' : Bytes × SignThread} (hi : SInv p x rest sm0 w)
    (h : signThreadStep H p w.1 w.2 = some w') : SInv p x rest sm0 w' := by
  obtain ⟨sk, pc, sm, m⟩ := w
  have hpos : 0 < 2 ^ p.full_height := Nat.two_pow_pos _
  have hwl : (wipedKey p).length = p.sk_bytes := wipedKey_length (by omega)
  have hol : (Rfc.toByte x p.index_bytes ++ rest).length = p.sk_bytes := by rw [List.length_append, toByte_length, hr]
  cases pc with
  | start =>
    obtain ⟨rfl, h2⟩ := hi
    simp only [signThreadStep, Option.bind_eq_bind, Option.bind_eq_some_iff] at h
    obtain ⟨sm', h3, h⟩ := h
    obtain rfl := Option.some.inj h
    exact ⟨rfl, by simp, same_msg h2 h3⟩
  | reading got =>
    obtain ⟨rfl, h1, h2⟩ := hi
    simp only [signThreadStep] at h
    split at h
    · rename_i hlt
      rw [List.getElem?_append_left (by rw [toByte_length]; exact hlt), List.getElem?_eq_getElem (by rw [toByte_length]; exact hlt)] at h
      simp only [Option.bind_eq_bind, Option.bind_some] at h
      obtain rfl := Option.some.inj h
      refine ⟨rfl, ?_, h2⟩
      simp only [List.length_append, List.length_singleton]
      rw [List.take_add_one, ← h1, List.getElem?_eq_getElem (by rw [toByte_length]; exact hlt)]
      rfl
    · rename_i hlt
      have e : got = Rfc.toByte x p.index_bytes := by
        rw [h1, List.take_of_length_le (by rw [toByte_length]; omega)]
      rw [bytesToUll_eq (by rw [e, toByte_length]; exact h8), e, toNat_toByte, Nat.mod_eq_of_lt hx] at h
      simp only [Option.bind_eq_bind, Option.bind_some] at h
      split at h
      · cases h
      · split at h
        · rename_i hl
          obtain rfl := Option.some.inj h
          exact ⟨rfl, hl, Nat.zero_le _, h2, by simp⟩
        · rename_i hl
          obtain rfl := Option.some.inj h
          refine ⟨rfl, by omega, h2, ?_⟩
          rw [baseIdx, if_pos (by omega), baseRest, if_pos (by omega)]
  | wiping idx j =>
    obtain ⟨rfl, h1, h2, h3, hsk⟩ := hi
    simp only [signThreadStep] at h hsk
    split at h
    · rename_i hlt
      split at h
      · obtain rfl := Option.some.inj h
        refine ⟨rfl, h1, hlt, h3, ?_⟩
        rw [hsk]
        exact set_up (by rw [hwl, hol]) (wipedKey_get hlt)
      · cases h
    · have ej : j = p.sk_bytes := by omega
      have hsk' : sk = wipedKey p := by
        rw [hsk, ej, List.take_of_length_le (by omega), List.drop_of_length_le (by omega), List.append_nil]
      split at h
      · obtain rfl := Option.some.inj h
        exact .inr ⟨rfl, by omega, h3, hsk'⟩
      · obtain rfl := Option.some.inj h
        refine ⟨rfl, by omega, h3, ?_⟩
        show sk = _
        rw [baseIdx, if_neg (by omega), baseRest, if_neg (by omega), hsk', wipedKey_eq]
  | copying idx j =>
    obtain ⟨rfl, h1, h2, hsk⟩ := hi
    simp only [signThreadStep] at h hsk
    split at h
    · rename_i hlt
      simp only [Option.bind_eq_bind, Option.bind_eq_some_iff] at h
      obtain ⟨b, _, sm', h4, h⟩ := h
      obtain rfl := Option.some.inj h
      exact ⟨rfl, h1, same_idx h2 (by simpa using hlt) h4, hsk⟩
    · obtain rfl := Option.some.inj h
      refine ⟨rfl, h1, h2, Nat.le_refl _, ?_⟩
      show sk = _
      rw [List.take_of_length_le (by rw [toByte_length]), List.drop_of_length_le (by rw [toByte_length]), List.append_nil, hsk]
  | writing idx j =>
    obtain ⟨rfl, h1, h2, h3, hsk⟩ := hi
    simp only at hsk h2
    cases j with
    | zero =>
      simp only [signThreadStep] at h
      obtain rfl := Option.some.inj h
      refine ⟨rfl, h1, h2, ?_⟩
      simpa using hsk
    | succ j =>
      simp only [signThreadStep] at h
      split at h
      · obtain rfl := Option.some.inj h
        refine ⟨rfl, h1, h2, by omega, ?_⟩
        show sk.set j _ = _
        have hl : j < ((Rfc.toByte (baseIdx p idx) p.index_bytes).take (j + 1) ++ (Rfc.toByte (idx + 1) p.index_bytes).drop (j + 1)).length := by
          simp [toByte_length]; omega
        rw [hsk, List.set_append_left _ _ hl, set_down (by simp [toByte_length]) (SignThreads.toByte_get (idx + 1) p.index_bytes j (by omega))]
      · cases h
  | signing idx =>
    obtain ⟨rfl, h1, h2, hsk⟩ := hi
    simp only [signThreadStep, Option.bind_eq_bind, Option.bind_eq_some_iff] at h
    obtain ⟨_, _, _, _, _, _, _, _, sm', _, h⟩ := h
    obtain rfl := Option.some.inj h
    exact .inl ⟨rfl, h1, hsk⟩
  | done r =>
    simp only [signThreadStep] at h
    obtain rfl := Option.some.inj h
    exact hi

theorem sinv_steps (h8 : p.index_bytes ≤ 8) {x : Nat} {rest sm0 : Bytes} (hx : x < 256 ^ p.index_bytes)
    (hr : p.index_bytes + rest.length = p.sk_bytes) : ∀ (j : Nat) {w w' : Bytes × SignThread}, SInv p x rest sm0 w →
    signSteps H p j w = some w' → SInv p x rest sm0 w' := by
  intro j
  induction j with
  | zero => intro w w' hi h; obtain rfl := Option.some.inj h; exact hi
  | succ j ih =>
    intro w w' hi h
    obtain ⟨w1, h1, h2⟩ := Option.bind_eq_some_iff.mp h
    exact ih (sinv_step h8 hx hr hi h1) h2

/-- Every key is an index and a rest. -/
theorem key_split {sk : Bytes} (h : p.index_bytes ≤ sk.length) :
    ∃ x rest, x < 256 ^ p.index_bytes ∧ sk = Rfc.toByte x p.index_bytes ++ rest ∧ p.index_bytes + rest.length = sk.length ∧
      storedIndex p sk = x := by
  have hl : (sk.take p.index_bytes).length = p.index_bytes := by simp; omega
  refine ⟨Rfc.toNat (sk.take p.index_bytes), sk.drop p.index_bytes, ?_, ?_, ?_, rfl⟩
  · have := toNat_lt (sk.take p.index_bytes); rwa [hl] at this
  · have := toByte_toNat (sk.take p.index_bytes)
    rw [hl] at this
    rw [this, List.take_append_drop]
  · simp; omega

/-- Every call of the simple implementation, cut off anywhere: unless it is cut off at an index that carries into the second byte,
the stored index never goes back, and it has advanced when anything of a signature has been written. -/
theorem simple_event (h8 : p.index_bytes ≤ 8) (h40 : 2 ^ p.full_height < 256 ^ p.index_bytes) (hskb : p.sk_bytes = p.index_bytes + 4 * p.n)
    {e : SignEvent} (he : SimpleEvent H p e) (hl : e.before.length = p.sk_bytes)
    (hc : e.ret ≠ none ∨ storedIndex p e.before % 256 ≠ 255 ∨ 2 ^ p.full_height - 1 ≤ storedIndex p e.before) : EventOk p e := by
  have hpos : 0 < 2 ^ p.full_height := Nat.two_pow_pos _
  obtain ⟨x, rest, hx, e1, hr, hst⟩ := key_split (p := p) (sk := e.before) (by omega)
  rw [hl] at hr
  have start : ∀ sm m, SInv p x rest sm (Rfc.toByte x p.index_bytes ++ rest, ⟨.start, sm, m⟩) := fun sm m => ⟨rfl, rfl, rfl⟩
  have fin : ∀ {sk' : Bytes} {sm0 m sm : Bytes} {ret : Option Int}, KeyOk p (Rfc.toByte x p.index_bytes ++ rest) sk' →
      (Same p sm0 sm ∧ ret ≠ some 0 ∨ (x < 2 ^ p.full_height ∧ storedIndex p sk' = x + 1)) →
      EventOk p ⟨Rfc.toByte x p.index_bytes ++ rest, sm0, m, sk', sm, ret⟩ := by
    intro sk' sm0 m sm ret hk hrel
    refine ⟨hk.len, hk.le, hk.mat, ?_⟩
    rintro hR
    rcases hrel with ⟨h1, h2⟩ | ⟨h1, h2⟩
    · rcases hR with h | h
      · exact absurd h1.2 h
      · exact absurd h h2
    · show storedIndex p _ < storedIndex p sk' ∧ storedIndex p _ < _
      rw [stored_eq x hx, h2]
      exact ⟨by omega, h1⟩
  cases he with
  | @between sk sm m j w h =>
    simp only at e1 hc hst
    subst e1
    have hi := sinv_steps h8 hx hr j (start sm m) h
    obtain ⟨sk', pc, sm', m'⟩ := w
    cases pc with
    | start => obtain ⟨rfl, h2⟩ := hi; exact fin (KeyOk.refl _) (.inl ⟨h2, by simp [SignPc.ret]⟩)
    | reading got => obtain ⟨rfl, _, h2⟩ := hi; exact fin (KeyOk.refl _) (.inl ⟨h2, by simp [SignPc.ret]⟩)
    | wiping idx j =>
      obtain ⟨rfl, h1, h2, h3, hsk⟩ := hi
      exact fin (ok_wiping h40 hx hr h2 hsk) (.inl ⟨h3, by simp [SignPc.ret]⟩)
    | copying idx j =>
      obtain ⟨rfl, h1, h2, hsk⟩ := hi
      refine fin ?_ (.inl ⟨h2, by simp [SignPc.ret]⟩)
      have := ok_up (j := 0) h40 h1 hr (by omega)
      simp only [List.take_zero, List.nil_append, List.drop_zero] at this
      rw [← hsk] at this
      exact this
    | writing idx j =>
      obtain ⟨rfl, h1, h2, h3, hsk⟩ := hi
      refine fin ?_ (.inl ⟨h2, by simp [SignPc.ret]⟩)
      have := ok_down (j := j) h40 h1 hr h3 (by
        rw [hst] at hc
        rcases hc with hc | hc
        · simp [SignPc.ret] at hc
        · exact hc)
      rw [← hsk] at this
      exact this
    | signing idx =>
      obtain ⟨rfl, h1, h2, hsk⟩ := hi
      simp only at hsk
      subst hsk
      exact fin (ok_stored h40 h1 (baseRest_length hr) rfl) (.inl ⟨h2, by simp [SignPc.ret]⟩)
    | done r =>
      rcases hi with ⟨rfl, h1, hsk⟩ | ⟨rfl, h1, h2, hsk⟩
      · simp only at hsk
        subst hsk
        exact fin (ok_stored h40 h1 (baseRest_length hr) rfl) (.inr ⟨h1, stored_eq _ (by omega) _⟩)
      · refine fin ?_ (.inl ⟨h2, by simp [SignPc.ret]⟩)
        simp only at hsk
        have hwl : (wipedKey p).length = p.sk_bytes := wipedKey_length (by omega)
        exact ok_wiping (j := p.sk_bytes) h40 hx hr (Nat.le_refl _) (by
          rw [List.take_of_length_le (by omega), List.drop_of_length_le (by rw [List.length_append, toByte_length]; omega), List.append_nil, hsk])
  | @inside sk sm m j w idx sm' h hpc _ =>
    simp only at e1 hc hst
    subst e1
    have hi := sinv_steps h8 hx hr j (start sm m) h
    obtain ⟨sk', pc, sm1, m'⟩ := w
    simp only at hpc
    subst hpc
    obtain ⟨rfl, h1, h2, hsk⟩ := hi
    simp only at hsk
    subst hsk
    exact fin (ok_stored h40 h1 (baseRest_length hr) rfl) (.inr ⟨h1, stored_eq _ (by omega) _⟩)

end SignCrash
end Xmss
