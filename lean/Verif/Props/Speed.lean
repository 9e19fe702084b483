import Verif.Model.Speed
import Verif.Props.SelfTest
/-
C69: what the benchmark test/speed reports.
-/
namespace Xmss

variable {P : Prims} {f : Family} {oid : Nat} {p pf : Params}

/-! ### Specification -/

/-- The measured durations: differences of consecutive readings of the cycle counter. -/
def durations : List UInt64 → List Nat
  | a :: b :: r => (b.toNat - a.toNat) :: durations (b :: r)
  | _ => []

/-- `v` is a median of `D`: it occurs in `D`, at most half of `D` is smaller and at most half is larger. -/
def IsMedian (D : List Nat) (v : Nat) : Prop :=
  v ∈ D ∧ 2 * D.countP (· < v) ≤ D.length ∧ 2 * D.countP (v < ·) ≤ D.length

/-! ### The two figures -/

theorem durations_length : ∀ (t : List UInt64), (durations t).length = t.length - 1
  | [] => rfl
  | [_] => rfl
  | a :: b :: r => by rw [durations, List.length_cons, durations_length]; simp

theorem durations_sum : ∀ (a : UInt64) (r : List UInt64), (a :: r).IsChain (· ≤ ·) →
    (durations (a :: r)).sum + a.toNat = ((a :: r).getLast (by simp)).toNat
  | a, [], _ => by simp [durations]
  | a, b :: r, h => by
    rw [List.isChain_cons_cons] at h
    have := durations_sum b r h.2
    have h1 : a.toNat ≤ b.toNat := h.1
    rw [durations, List.sum_cons, List.getLast_cons (by simp)]
    omega

theorem mem_le_sum : ∀ (l : List Nat) {x : Nat}, x ∈ l → x ≤ l.sum
  | [], _, h => by simp at h
  | a :: l, x, h => by
    rw [List.sum_cons]
    rcases List.mem_cons.mp h with rfl | h
    · omega
    · have := mem_le_sum l h; omega

/-- The array after the loop: the durations, then the last reading. -/
theorem diffLoop_eq : ∀ (k : Nat) (pre : List UInt64) (a : UInt64) (r : List UInt64), r.length = k → (a :: r).IsChain (· ≤ ·) →
    diffLoop k pre.length (pre ++ a :: r) = some (pre ++ (durations (a :: r)).map UInt64.ofNat ++ [(a :: r).getLast (by simp)])
  | 0, pre, a, r, hr, _ => by
    obtain rfl := List.eq_nil_of_length_eq_zero hr
    simp [diffLoop, durations]
  | k + 1, pre, a, [], hr, _ => by simp at hr
  | k + 1, pre, a, b :: r, hr, h => by
    rw [List.isChain_cons_cons] at h
    have h1 : a.toNat ≤ b.toNat := h.1
    have e1 : (pre ++ a :: b :: r)[pre.length + 1]? = some b := by
      rw [List.getElem?_append_right (by omega)]; simp
    have e2 : (pre ++ a :: b :: r)[pre.length]? = some a := by simp
    have e3 : (pre ++ a :: b :: r).set pre.length (b - a) = (pre ++ [b - a]) ++ b :: r := by
      rw [List.set_append_right _ _ (Nat.le_refl _)]; simp
    have ih := diffLoop_eq k (pre ++ [b - a]) b r (by simpa using hr) h.2
    rw [List.length_append, List.length_singleton] at ih
    rw [diffLoop, e1, e2]
    simp only [Option.bind_eq_bind, Option.bind_some, e3, ih, durations, List.map_cons]
    have : UInt64.ofNat (b.toNat - a.toNat) = b - a := by
      apply UInt64.toNat.inj
      rw [UInt64.toNat_sub_of_le _ _ h.1, UInt64.toNat_ofNat', Nat.mod_eq_of_lt]
      have := b.toNat_lt
      omega
    rw [this, show (a :: b :: r).getLast (by simp) = (b :: r).getLast (by simp) from List.getLast_cons _]
    simp only [List.append_assoc, List.cons_append, List.nil_append]

theorem sumLoop_eq : ∀ (l : List UInt64) (acc : UInt64), (sumLoop l acc).toNat = (acc.toNat + (l.map UInt64.toNat).sum) % 2 ^ 64
  | [], acc => by have := acc.toNat_lt; simp [sumLoop]
  | x :: l, acc => by
    rw [sumLoop, sumLoop_eq, UInt64.toNat_add, List.map_cons, List.sum_cons]
    omega

/-- `D` in ascending order. -/
def ascending (D : List Nat) : List Nat := D.mergeSort (fun a b => a ≤ b)

theorem ascending_perm (D : List Nat) : (ascending D).Perm D := List.mergeSort_perm _ _

theorem ascending_length (D : List Nat) : (ascending D).length = D.length := (ascending_perm D).length_eq

theorem ascending_pairwise (D : List Nat) : (ascending D).Pairwise (· ≤ ·) := by
  have := List.pairwise_mergeSort (le := fun a b : Nat => decide (a ≤ b)) (by intro a b c; simp; omega) (by intro a b; simp; omega) D
  simpa [ascending] using this

/-- Sorting the array: the durations in order, then the last reading, which is at least as large as each of them. -/
theorem sort_array {D : List Nat} {z : UInt64} (hD : ∀ x ∈ D, x ≤ z.toNat) :
    (D.map UInt64.ofNat ++ [z]).mergeSort (fun a b => a ≤ b) = (ascending D).map UInt64.ofNat ++ [z] := by
  have hz := z.toNat_lt
  have conv : ∀ x ∈ D, (UInt64.ofNat x).toNat = x := fun x hx => by
    rw [UInt64.toNat_ofNat', Nat.mod_eq_of_lt]
    have := hD x hx; omega
  have hs : ∀ x ∈ ascending D, x ∈ D := fun x hx => (ascending_perm D).mem_iff.mp hx
  have p1 : ((D.map UInt64.ofNat ++ [z]).mergeSort (fun a b => a ≤ b)).Pairwise (· ≤ ·) := by
    have := List.pairwise_mergeSort (le := fun a b : UInt64 => decide (a ≤ b))
      (by intro a b c; simp only [decide_eq_true_eq]; exact fun h1 h2 => UInt64.le_trans h1 h2)
      (by intro a b; simp only [Bool.or_eq_true, decide_eq_true_eq]; exact UInt64.le_total a b) (D.map UInt64.ofNat ++ [z])
    simpa using this
  have p2 : ((ascending D).map UInt64.ofNat ++ [z]).Pairwise (· ≤ ·) := by
    rw [List.pairwise_append]
    refine ⟨?_, List.pairwise_singleton _ _, ?_⟩
    · rw [List.pairwise_map]
      apply List.Pairwise.imp_of_mem _ (ascending_pairwise D)
      intro a b ha hb h
      show (UInt64.ofNat a).toNat ≤ (UInt64.ofNat b).toNat
      rw [conv a (hs a ha), conv b (hs b hb)]
      exact h
    · intro a ha b hb
      obtain ⟨x, hx, rfl⟩ := List.mem_map.mp ha
      rw [List.mem_singleton] at hb
      subst hb
      show (UInt64.ofNat x).toNat ≤ b.toNat
      rw [conv x (hs x hx)]
      exact hD x (hs x hx)
  refine List.Perm.eq_of_pairwise (le := (· ≤ ·)) ?_ p1 p2 ?_
  · intro a b _ _ h1 h2
    exact UInt64.le_antisymm h1 h2
  · exact (List.mergeSort_perm _ _).trans (((ascending_perm D).map _).symm.append_right _)

theorem two_le_sum : ∀ (l : List Nat) (i : Nat), i + 1 < l.length → l.getD i 0 + l.getD (i + 1) 0 ≤ l.sum
  | [], i, h => by simp at h
  | [_], i, h => by simp at h
  | a :: b :: l, 0, _ => by simp
  | a :: b :: l, i + 1, h => by
    have := two_le_sum (b :: l) i (by simpa using h)
    simp only [List.getD_cons_succ, List.sum_cons] at this ⊢
    omega

/-- What is printed, for readings that do not decrease. -/
theorem printResults_eq (t : List UInt64) (h2 : 2 ≤ t.length) (hb : t.length < 2 ^ 64) (h : t.IsChain (· ≤ ·)) :
    ∃ m a, printResults t = some (m, a) ∧ a.toNat = (durations t).sum / (t.length - 1) ∧
      (t.length % 2 = 0 → 4 ≤ t.length →
        m.toNat = ((ascending (durations t)).getD (t.length / 2 - 1) 0 + (ascending (durations t)).getD (t.length / 2) 0) / 2) ∧
      (t.length % 2 = 1 → m.toNat = (ascending (durations t)).getD (t.length / 2) 0) := by
  obtain ⟨x, r, rfl⟩ : ∃ x r, t = x :: r := by
    cases t with
    | nil => simp at h2
    | cons x r => exact ⟨x, r, rfl⟩
  set t := x :: r with ht
  set D := durations t with hDdef
  set z := t.getLast (by simp [ht]) with hz
  have hsum : D.sum + x.toNat = z.toNat := durations_sum x r h
  have hlt := z.toNat_lt
  have hD : ∀ v ∈ D, v ≤ z.toNat := fun v hv => by have := mem_le_sum D hv; omega
  have hDl : D.length = t.length - 1 := durations_length t
  have hd := diffLoop_eq r.length [] x r rfl h
  rw [List.nil_append, List.nil_append] at hd
  have hd : diffLoop (t.length - 1) 0 t = some (D.map UInt64.ofNat ++ [z]) := by
    rw [← hd]; rfl
  have hsort := sort_array hD
  have hsl := ascending_length D
  have hs : ∀ v ∈ ascending D, v ∈ D := fun v hv => (ascending_perm D).mem_iff.mp hv
  have conv : ∀ v ∈ D, (UInt64.ofNat v).toNat = v := fun v hv => by
    rw [UInt64.toNat_ofNat', Nat.mod_eq_of_lt]
    have := hD v hv; omega
  have hssum : (ascending D).sum = D.sum := (ascending_perm D).sum_eq
  have hmap : ((ascending D).map UInt64.ofNat).map UInt64.toNat = ascending D := by
    rw [List.map_map]
    conv_rhs => rw [← List.map_id (ascending D)]
    exact List.map_congr_left fun v hv => conv v (hs v hv)
  have hl : ((ascending D).map UInt64.ofNat ++ [z]).length = t.length := by simp [hsl, hDl]; omega
  have hav : ∀ n, n = t.length - 1 → average ((ascending D).map UInt64.ofNat ++ [z]) n =
      some (sumLoop ((ascending D).map UInt64.ofNat) 0 / UInt64.ofNat n) := by
    rintro n rfl
    rw [average, if_neg (by rw [hl]; omega), List.take_left' (by rw [List.length_map, hsl, hDl])]
  have ha : t.length < 2 ^ 64 → (sumLoop ((ascending D).map UInt64.ofNat) 0 / UInt64.ofNat (t.length - 1)).toNat = D.sum / (t.length - 1) := by
    intro hb
    rw [UInt64.toNat_div, sumLoop_eq, hmap, hssum, UInt64.toNat_ofNat', Nat.mod_eq_of_lt (show t.length - 1 < 2 ^ 64 by omega)]
    congr 1
    have : D.sum < 2 ^ 64 := by omega
    simp only [UInt64.toNat_zero, zero_add]
    exact Nat.mod_eq_of_lt this
  have hget : ∀ i < D.length, ((ascending D).map UInt64.ofNat ++ [z])[i]? = some (UInt64.ofNat ((ascending D).getD i 0)) ∧
      (UInt64.ofNat ((ascending D).getD i 0)).toNat = (ascending D).getD i 0 := by
    intro i hi
    have hi' : i < (ascending D).length := by rw [hsl]; exact hi
    rw [List.getElem?_append_left (by rw [List.length_map]; exact hi'), List.getElem?_map, List.getElem?_eq_getElem hi',
      List.getD_eq_getElem _ _ hi']
    exact ⟨rfl, conv _ (hs _ (List.getElem_mem hi'))⟩
  have hex : ∀ (y : List UInt64) m a, diffLoop (t.length - 1) 0 t = some y → median y = some m →
      average (y.mergeSort (fun a b => a ≤ b)) (y.mergeSort (fun a b => a ≤ b)).length.pred = some a → printResults t = some (m, a) := by
    intro y m a h1 h2 h3
    rw [printResults, if_neg (by simp [ht]), h1]
    simp only [Option.bind_eq_bind, Option.bind_some, h2]
    rw [show average (y.mergeSort (fun a b => a ≤ b)) ((y.mergeSort (fun a b => a ≤ b)).length - 1) = some a from h3]
    rfl
  have hav'' := ha hb
  have hmed : median (D.map UInt64.ofNat ++ [z]) = (if t.length % 2 = 1 then ((ascending D).map UInt64.ofNat ++ [z])[t.length / 2]?
      else ((ascending D).map UInt64.ofNat ++ [z])[t.length / 2 - 1]?.bind fun a =>
        ((ascending D).map UInt64.ofNat ++ [z])[t.length / 2]?.bind fun b => some ((a + b) / 2)) := by
    rw [median, hsort]
    simp only [hl]
    rw [if_neg (show ¬ t.length = 0 by omega)]
    rfl
  have hpr : ∀ m, median (D.map UInt64.ofNat ++ [z]) = some m →
      printResults t = some (m, sumLoop ((ascending D).map UInt64.ofNat) 0 / UInt64.ofNat (t.length - 1)) := by
    intro m hm
    refine hex _ _ _ hd hm ?_
    rw [hsort, hl]
    exact hav _ rfl
  by_cases ho : t.length % 2 = 1
  · obtain ⟨g1, g2⟩ := hget (t.length / 2) (by omega)
    rw [if_pos ho, g1] at hmed
    exact ⟨_, _, hpr _ hmed, hav'', fun h => by omega, fun _ => g2⟩
  · rw [if_neg ho] at hmed
    obtain ⟨g1, g2⟩ := hget (t.length / 2 - 1) (by omega)
    by_cases h4 : 4 ≤ t.length
    · obtain ⟨g3, g4⟩ := hget (t.length / 2) (by omega)
      rw [g1, g3] at hmed
      refine ⟨_, _, hpr _ hmed, hav'', fun _ _ => ?_, fun h => absurd h ho⟩
      have := two_le_sum (ascending D) (t.length / 2 - 1) (by omega)
      rw [show t.length / 2 - 1 + 1 = t.length / 2 by omega] at this
      rw [UInt64.toNat_div, UInt64.toNat_add, g2, g4, Nat.mod_eq_of_lt (by omega)]
      rfl
    · obtain ⟨b, hb⟩ : ∃ b, ((ascending D).map UInt64.ofNat ++ [z])[t.length / 2]? = some b :=
        ⟨_, List.getElem?_eq_getElem (by rw [hl]; omega)⟩
      rw [g1, hb] at hmed
      exact ⟨_, _, hpr _ hmed, hav'', fun _ h => absurd h h4, fun h => absurd h ho⟩

/-! ### Positions in ordered lists -/

theorem countP_lt_le {l : List Nat} (hl : l.Pairwise (· ≤ ·)) {i : Nat} (hi : i < l.length) : l.countP (· < l.getD i 0) ≤ i := by
  have e : l.countP (· < l.getD i 0) = (l.take i).countP (· < l.getD i 0) + (l.drop i).countP (· < l.getD i 0) := by
    conv_lhs => arg 2; rw [← List.take_append_drop i l]
    rw [List.countP_append]
  have h0 : (l.drop i).countP (· < l.getD i 0) = 0 := by
    rw [List.countP_eq_zero]
    intro x hx
    obtain ⟨j, hj, rfl⟩ := List.getElem_of_mem hx
    rw [List.getElem_drop, List.getD_eq_getElem _ _ hi, decide_eq_true_eq, Nat.not_lt]
    rcases Nat.eq_zero_or_pos j with rfl | h
    · exact Nat.le_refl _
    · exact List.pairwise_iff_getElem.mp hl _ _ hi _ (by omega)
  have h1 := List.countP_le_length (p := fun x => decide (x < l.getD i 0)) (l := l.take i)
  rw [List.length_take] at h1
  omega

theorem countP_gt_le {l : List Nat} (hl : l.Pairwise (· ≤ ·)) {i : Nat} (hi : i < l.length) :
    l.countP (l.getD i 0 < ·) + i + 1 ≤ l.length := by
  have e : l.countP (l.getD i 0 < ·) = (l.take (i + 1)).countP (l.getD i 0 < ·) + (l.drop (i + 1)).countP (l.getD i 0 < ·) := by
    conv_lhs => arg 2; rw [← List.take_append_drop (i + 1) l]
    rw [List.countP_append]
  have h0 : (l.take (i + 1)).countP (l.getD i 0 < ·) = 0 := by
    rw [List.countP_eq_zero]
    intro x hx
    obtain ⟨j, hj, rfl⟩ := List.getElem_of_mem hx
    rw [List.length_take] at hj
    rw [List.getElem_take, List.getD_eq_getElem _ _ hi, decide_eq_true_eq, Nat.not_lt]
    rcases Nat.lt_or_ge j i with h | h
    · exact List.pairwise_iff_getElem.mp hl _ _ _ hi h
    · obtain rfl : j = i := by omega
      exact Nat.le_refl _
  have h1 := List.countP_le_length (p := fun x => decide (l.getD i 0 < x)) (l := l.drop (i + 1))
  rw [List.length_drop] at h1
  omega

theorem lt_countP {l : List Nat} (hl : l.Pairwise (· ≤ ·)) {i : Nat} (hi : i < l.length) {v : Nat} (hv : l.getD i 0 < v) :
    i + 1 ≤ l.countP (· < v) := by
  have e : l.countP (· < v) = (l.take (i + 1)).countP (· < v) + (l.drop (i + 1)).countP (· < v) := by
    conv_lhs => arg 2; rw [← List.take_append_drop (i + 1) l]
    rw [List.countP_append]
  have h0 : (l.take (i + 1)).countP (· < v) = (l.take (i + 1)).length := by
    rw [List.countP_eq_length]
    intro x hx
    obtain ⟨j, hj, rfl⟩ := List.getElem_of_mem hx
    rw [List.length_take] at hj
    rw [List.getD_eq_getElem _ _ hi] at hv
    rw [List.getElem_take, decide_eq_true_eq]
    rcases Nat.lt_or_ge j i with h | h
    · exact lt_of_le_of_lt (List.pairwise_iff_getElem.mp hl _ _ _ hi h) hv
    · obtain rfl : j = i := by omega
      exact hv
  rw [List.length_take] at h0
  omega

/-- Position `i` of the ordered list is a median if it is one of the two middle positions. -/
theorem isMedian_getD {D : List Nat} {i : Nat} (h1 : 2 * i ≤ D.length) (h2 : D.length ≤ 2 * i + 2) (h : i < D.length) :
    IsMedian D ((ascending D).getD i 0) := by
  have hl := ascending_length D
  have a := countP_lt_le (ascending_pairwise D) (i := i) (by omega)
  have b := countP_gt_le (ascending_pairwise D) (i := i) (by omega)
  rw [(ascending_perm D).countP_eq] at a b
  refine ⟨(ascending_perm D).mem_iff.mp ?_, by omega, by omega⟩
  rw [List.getD_eq_getElem _ _ (by omega)]
  exact List.getElem_mem _

/-! ### The theorems -/

/-- **C69 (average).**  For readings that do not decrease, the second figure is the rounded mean of the durations. -/
theorem C69_average (t : List UInt64) (h2 : 2 ≤ t.length) (hb : t.length < 2 ^ 64) (h : t.IsChain (· ≤ ·)) :
    ∃ m a, printResults t = some (m, a) ∧ a.toNat = (durations t).sum / (durations t).length := by
  obtain ⟨m, a, h1, h2, _⟩ := printResults_eq t h2 hb h
  exact ⟨m, a, h1, by rw [durations_length]; exact h2⟩

/-- **C69 (median, odd number of readings).**  The first figure is a median of the durations. -/
theorem C69_median_odd (t : List UInt64) (h2 : 2 ≤ t.length) (hb : t.length < 2 ^ 64) (h : t.IsChain (· ≤ ·)) (ho : t.length % 2 = 1) :
    ∃ m a, printResults t = some (m, a) ∧ IsMedian (durations t) m.toNat := by
  obtain ⟨m, a, h1, _, _, h3⟩ := printResults_eq t h2 hb h
  refine ⟨m, a, h1, ?_⟩
  rw [h3 ho]
  have := durations_length t
  exact isMedian_getD (by omega) (by omega) (by omega)

/-- **C69 (median, even number of readings).**  The number of durations is odd, but the program takes the mean of two entries of the
array, which has the last reading as one more entry: the figure is the median only if the entry after the median exceeds it by at
most 1. -/
theorem C69_median_even (t : List UInt64) (h4 : 4 ≤ t.length) (hb : t.length < 2 ^ 64) (h : t.IsChain (· ≤ ·)) (ho : t.length % 2 = 0) :
    ∃ m a, printResults t = some (m, a) ∧ (IsMedian (durations t) m.toNat ↔
      (ascending (durations t)).getD (t.length / 2) 0 ≤ (ascending (durations t)).getD (t.length / 2 - 1) 0 + 1) := by
  obtain ⟨m, a, h1, _, h3, _⟩ := printResults_eq t (by omega) hb h
  refine ⟨m, a, h1, ?_⟩
  have h3 := h3 ho h4
  have hl := durations_length t
  have hal := ascending_length (durations t)
  have hp := ascending_pairwise (durations t)
  set A := (ascending (durations t)) with hA
  have hle : A.getD (t.length / 2 - 1) 0 ≤ A.getD (t.length / 2) 0 := by
    rw [List.getD_eq_getElem _ _ (by omega), List.getD_eq_getElem _ _ (by omega)]
    exact List.pairwise_iff_getElem.mp hp _ _ _ _ (by omega)
  constructor
  · rintro ⟨_, c, _⟩
    by_contra hc
    have := lt_countP hp (i := t.length / 2 - 1) (by omega) (v := m.toNat) (by omega)
    rw [hA, (ascending_perm _).countP_eq] at this
    omega
  · intro hc
    have e : m.toNat = A.getD (t.length / 2 - 1) 0 := by omega
    rw [e]
    exact isMedian_getD (by omega) (by omega) (by omega)

/-- Readings of a run with the default of 16 signatures for which the first figure is not a median of the durations. -/
theorem C69_median_fails : ∃ t : List UInt64, t.length = 16 ∧ t.IsChain (· ≤ ·) ∧
    ∃ m a, printResults t = some (m, a) ∧ ¬ IsMedian (durations t) m.toNat := by
  refine ⟨[0, 10, 20, 30, 40, 50, 60, 70, 80, 100, 120, 140, 160, 180, 200, 220], rfl, by decide, ?_⟩
  obtain ⟨m, a, h1, h2⟩ := C69_median_even [0, 10, 20, 30, 40, 50, 60, 70, 80, 100, 120, 140, 160, 180, 200, 220] (by decide)
    (by norm_num) (by decide) (by decide)
  refine ⟨m, a, h1, ?_⟩
  rw [h2, show durations _ = [10, 10, 10, 10, 10, 10, 10, 10, 20, 20, 20, 20, 20, 20, 20] by decide +kernel, ascending,
    List.mergeSort_of_pairwise (by decide)]
  decide

/-- Two signatures: the figure is the mean of the duration and of the last reading of the counter. -/
theorem C69_two_readings (a b : UInt64) (h : a ≤ b) (hb : b.toNat < 2 ^ 63) :
    ∃ m, printResults [a, b] = some (m, b - a) ∧ m.toNat = (b.toNat - a.toNat + b.toNat) / 2 := by
  have hab : a.toNat ≤ b.toNat := h
  have hs : (b - a).toNat = b.toNat - a.toNat := UInt64.toNat_sub_of_le _ _ h
  have hd : diffLoop 1 0 [a, b] = some [b - a, b] := rfl
  have hp : [b - a, b].mergeSort (fun a b => a ≤ b) = [b - a, b] := by
    apply List.mergeSort_of_pairwise
    rw [List.pairwise_pair, decide_eq_true_eq]
    show (b - a).toNat ≤ b.toNat
    omega
  have hm : median [b - a, b] = some ((b - a + b) / 2) := by
    rw [median, hp]
    simp only [List.length_cons, List.length_nil, show ¬ (0 + 1 + 1) % 2 = 1 by decide, show ¬ 0 + 1 + 1 = 0 by decide, if_false]
    rfl
  have hv : average [b - a, b] 1 = some (b - a) := by
    have h0 : sumLoop ([b - a, b].take 1) 0 / UInt64.ofNat 1 = b - a := by
      show (0 + (b - a)) / 1 = b - a
      apply UInt64.toNat.inj
      simp
    rw [average, if_neg (by simp), h0]
  refine ⟨(b - a + b) / 2, ?_, ?_⟩
  · rw [printResults, if_neg (by simp), show [a, b].length - 1 = 1 from rfl, hd]
    simp only [Option.bind_eq_bind, Option.bind_some, hm, hp]
    rw [show [b - a, b].length - 1 = 1 from rfl, hv]
    rfl
  · rw [UInt64.toNat_div, UInt64.toNat_add, hs, Nat.mod_eq_of_lt (by omega)]
    rfl

/-- One signature: division by zero. -/
theorem C69_one_reading (a : UInt64) : printResults [a] = none := by
  rw [printResults, if_neg (by simp), show diffLoop ([a].length - 1) 0 [a] = some [a] from rfl]
  simp [median, average]

/-! ### The exit code -/

theorem speedSign_eq {sign : SignFun} {m : Bytes} (sm_ok : Bytes → Prop) (Inv : Nat → Bytes → Prop) (out : Nat → Bytes) (L N : Nat)
    (hstep : ∀ i < N, ∀ sk sm l, Inv i sk → sm_ok sm → ∃ o, sign sk sm l m = some o ∧ o.sm = out i ∧ o.smlen = L ∧ Inv (i + 1) o.sk)
    (hok : ∀ i, sm_ok (out i)) : ∀ (k i : Nat) (sk sm : Bytes) (l : Nat), i + k + 1 = N → Inv i sk → sm_ok sm →
      ∃ sk', speedSign sign m (k + 1) sk sm l = some (sk', out (i + k), L)
  | 0, i, sk, sm, l, hi, hI, hsm => by
    obtain ⟨o, h1, h2, h3, _⟩ := hstep i (by omega) sk sm l hI hsm
    refine ⟨o.sk, ?_⟩
    rw [speedSign, h1]
    simp only [Option.bind_eq_bind, Option.bind_some, speedSign, h2, h3, add_zero]
  | k + 1, i, sk, sm, l, hi, hI, hsm => by
    obtain ⟨o, h1, h2, h3, h4⟩ := hstep i (by omega) sk sm l hI hsm
    obtain ⟨sk', e⟩ := speedSign_eq sm_ok Inv out L N hstep hok k (i + 1) o.sk o.sm o.smlen (by omega) h4 (h2 ▸ hok i)
    refine ⟨sk', ?_⟩
    rw [speedSign, h1]
    simp only [Option.bind_eq_bind, Option.bind_some, e]
    rw [show i + 1 + k = i + (k + 1) by omega]

theorem speedOpen_eq {openf : OpenFun} {sm pk : Bytes} {L : Nat} (ok : Bytes → Prop)
    (h : ∀ mout l, ok mout → ∃ r, openf mout l sm L pk = some r ∧ ok r.m ∧ r.ret = 0) : ∀ (k : Nat) (mout : Bytes) (l : Nat),
      ok mout → speedOpen openf sm L pk k mout l 0 = some 0
  | 0, _, _, _ => rfl
  | k + 1, mout, l, hm => by
    obtain ⟨r, h1, h2, h3⟩ := h mout l hm
    rw [speedOpen, h1]
    simp only [Option.bind_eq_bind, Option.bind_some, orRet, h3, if_true]
    exact speedOpen_eq ok h k r.m r.mlen h2

/-- **C69 (exit code).**  Every parameter set with `d ≤ h'/2 + 2`, every number `2 ≤ N ≤ 2^h - 1` of signatures (`XMSS_SIGNATURES`), all
random values, all uninitialised contents and all readings of the counter that do not decrease: the program has no undefined behaviour,
does not report verification errors and returns 0. -/
theorem C69_exit_code (hp : f.parse oid = some p) (hpf : f.parseFast oid = some pf) (hd : p.d ≤ p.tree_height / 2 + 2) (N : Nat)
    (h2 : 2 ≤ N) (hN : N ≤ 2 ^ p.full_height - 1) (pk0 sk0 sm0 mout0 : Bytes) (l0 mlen0 : Nat) (hpk : pk0.length = 4 + pf.pk_bytes)
    (hsk : sk0.length = 4 + pf.sk_bytes) (hsm : sm0.length = p.sig_bytes + 32) (hmo : mout0.length = p.sig_bytes + 32)
    (seed : Nat → Bytes) (hs : (seed p.n).length = 3 * p.n) (m : Bytes) (hm : m.length = 32) (t1 t2 : List UInt64)
    (ht1 : t1.length = N) (ht2 : t2.length = N) (hc1 : t1.IsChain (· ≤ ·)) (hc2 : t2.IsChain (· ≤ ·)) :
    ∃ r1 r2, speedMain (f.keypairFast P) (fastSign (f.signFast P)) (f.signOpenFast P) oid N pk0 sk0 sm0 mout0 l0 mlen0 seed m t1 t2 =
      some (0, r1, r2) ∧ printResults t1 = some r1 ∧ printResults t2 = some r2 := by
  obtain ⟨g, hskb, ho, H, hH⟩ := Family.facts (P := P) hp
  have hHl := Family.hash_length hp hH
  obtain ⟨pf', hpf', e⟩ := parse_both hp
  rw [hpf] at hpf'
  cases hpf'
  have hHf : coreHash P pf.func pf.n = some H := by rw [e]; exact hH
  have hS : suiteOf pf H = suiteOf p H := by rw [e]; rfl
  have en : pf.n = p.n := by rw [e]
  have esig : pf.sig_bytes = p.sig_bytes := by rw [e]
  have efh : pf.full_height = p.full_height := by rw [e]
  have eth : pf.tree_height = p.tree_height := by rw [e]
  have ed : pf.d = p.d := by rw [e]
  have h64 : N < 2 ^ 64 := by
    have := Nat.pow_lt_pow_right (a := 2) (by norm_num) g.fh_lt
    omega
  obtain ⟨k, hv, hh, hsd, sk, _, ek, hist⟩ := fast_history hpf hHf pk0 sk0 hpk hsk seed (by rw [en]; exact hs)
  have hv' : k.Valid p := ⟨by rw [← en]; exact hv.skSeed, by rw [← en]; exact hv.skPrf, by rw [← en]; exact hv.root,
    by rw [← en]; exact hv.pubSeed⟩
  obtain ⟨k', rfl⟩ : ∃ k', N = k' + 1 := ⟨N - 1, by omega⟩
  set out := fun i => (suiteOf p H).sign k.skSeed k.skPrf k.root k.pubSeed i m ++ m with hout
  have hol : ∀ i, (out i).length = p.sig_bytes + 32 := fun i => by rw [hout]; simp only [List.length_append, sign_length g hHl, hm]
  obtain ⟨sk', e1⟩ := speedSign_eq (sign := fastSign (f.signFast P)) (m := m) (fun s => s.length = p.sig_bytes + 32)
    (FastInv P f p (Rfc.toByte oid 4 ++ sk) m) out (p.sig_bytes + 32) (k' + 1) (by
      intro i hi sk' sm l hI hsm
      obtain ⟨o, o', a1, a2, a3, a4, a5, a6⟩ := fastStep (p := pf) (H := H) (k := k) (oid := oid) (sk0 := sk) hm (N := k' + 1)
        (fun cs hcs hl => hist cs hcs ⟨fun h => by rw [efh] at h; rw [h] at hN; omega, Or.inl (by rw [ed, eth]; exact hd)⟩) i hi sk' sm l
        (by rw [FastInv, esig]; exact hI) (by rw [esig]; exact hsm)
      have hlast : i + 1 < 2 ^ pf.full_height := by rw [efh]; omega
      refine ⟨o.toSignOut, by rw [fastSign, a1]; rfl, ?_, ?_, ?_⟩
      · show o.sm = _
        rw [a3, (a2.ok hlast).2.2.1, hS, List.drop_of_length_le (by simp only; omega), List.append_nil]
      · show o.smlen = _
        rw [a5, (a2.ok hlast).2.1, esig, hm]
      · show FastInv P f p _ m (i + 1) o.sk
        rw [FastInv, esig] at a6
        exact a6) hol k' 0 (Rfc.toByte oid 4 ++ sk) sm0 l0 (by omega) ⟨[], [], rfl, by simp, rfl, rfl⟩ hsm
  rw [zero_add] at e1
  have e2 := speedOpen_eq (openf := f.signOpenFast P) (sm := out k') (pk := k.pk oid) (L := p.sig_bytes + 32)
    (fun s => s.length = p.sig_bytes + 32) (by
      intro mout l hmo
      obtain ⟨r, b1, b2, b3, _⟩ := opens hp hH k hv' mout l (out k') (hol k') hmo
      exact ⟨r, by rw [C49_open_is_the_same]; exact b1, b2, (b3 (acc_sign g hHl k (hS ▸ hh) m k' (by omega))).1⟩) (k' + 1) mout0 mlen0 hmo
  obtain ⟨m1, a1, p1, -⟩ := printResults_eq t1 (by omega) (by omega) hc1
  obtain ⟨m2, a2, p2, -⟩ := printResults_eq t2 (by omega) (by omega) hc2
  refine ⟨_, _, ?_, p1, p2⟩
  simp only [speedMain, ek, Option.bind_eq_bind, Option.bind_some, e1, e2, p1, p2]

/-! ### Errors are reported -/

/-- The return values of `k` open calls in a row on one signed message, each with the buffer and length the previous one left. -/
def openReturns (openf : OpenFun) (sm : Bytes) (smlen : Nat) (pk : Bytes) : Nat → Bytes → Nat → Option (List Int)
  | 0, _, _ => some []
  | k + 1, mout, mlen => do
    let v ← openf mout mlen sm smlen pk
    let rs ← openReturns openf sm smlen pk k v.m v.mlen
    some (v.ret :: rs)

theorem speedOpen_returns {openf : OpenFun} {sm pk : Bytes} {smlen : Nat} : ∀ (k : Nat) (mout : Bytes) (mlen : Nat) (ret r : Int),
    speedOpen openf sm smlen pk k mout mlen ret = some r →
    ∃ rs, openReturns openf sm smlen pk k mout mlen = some rs ∧ rs.length = k ∧ (r = 0 ↔ ret = 0 ∧ ∀ x ∈ rs, x = 0) := by
  intro k
  induction k with
  | zero =>
    intro mout mlen ret r h
    simp only [speedOpen, Option.some.injEq] at h
    subst h
    exact ⟨[], rfl, rfl, by simp⟩
  | succ k ih =>
    intro mout mlen ret r h
    simp only [speedOpen, Option.bind_eq_bind] at h
    cases ho : openf mout mlen sm smlen pk with
    | none => simp [ho] at h
    | some v =>
      simp only [ho, Option.bind_some] at h
      obtain ⟨rs, h1, h2, h3⟩ := ih v.m v.mlen _ r h
      refine ⟨v.ret :: rs, ?_, by simp [h2], ?_⟩
      · simp only [openReturns, ho, h1, Option.bind_eq_bind, Option.bind_some]
      · rw [h3, orRet]
        by_cases hv : v.ret = 0
        · simp [hv]
        · rw [if_neg hv]
          simp [hv]

/-- **C69 (errors are reported).**  Whatever the library does: if the program ends, its exit code is 0 exactly when all `N` open calls on
the last signed message have returned 0. -/
theorem C69_errors_reported (keypair : KeypairFun) (sign : SignFun) (openf : OpenFun) (N : Nat) (pk0 sk0 sm0 mout0 : Bytes)
    (l0 mlen0 : Nat) (seed : Nat → Bytes) (m : Bytes) (t1 t2 : List UInt64) (ret : Int) (r : (UInt64 × UInt64) × UInt64 × UInt64)
    (h : speedMain keypair sign openf oid N pk0 sk0 sm0 mout0 l0 mlen0 seed m t1 t2 = some (ret, r)) :
    ∃ kr pk sk sk' sm smlen rs, keypair pk0 sk0 oid seed = some (kr, pk, sk) ∧ speedSign sign m N sk sm0 l0 = some (sk', sm, smlen) ∧
      openReturns openf sm smlen pk N mout0 mlen0 = some rs ∧ rs.length = N ∧ (ret = 0 ↔ ∀ x ∈ rs, x = 0) := by
  simp only [speedMain, Option.bind_eq_bind] at h
  cases hk : keypair pk0 sk0 oid seed with
  | none => simp [hk] at h
  | some kp =>
    simp only [hk, Option.bind_some] at h
    cases hs : speedSign sign m N kp.2.2 sm0 l0 with
    | none => simp [hs] at h
    | some s =>
      simp only [hs, Option.bind_some] at h
      cases h1 : printResults t1 with
      | none => simp [h1] at h
      | some r1 =>
        simp only [h1, Option.bind_some] at h
        cases ho : speedOpen openf s.2.1 s.2.2 kp.2.1 N mout0 mlen0 0 with
        | none => simp [ho] at h
        | some ret' =>
          simp only [ho, Option.bind_some] at h
          cases h2 : printResults t2 with
          | none => simp [h2] at h
          | some r2 =>
            simp only [h2, Option.bind_some, Option.some.injEq, Prod.mk.injEq] at h
            obtain ⟨rs, q1, q2, q3⟩ := speedOpen_returns N mout0 mlen0 0 ret' ho
            exact ⟨kp.1, kp.2.1, kp.2.2, s.1, s.2.1, s.2.2, rs, rfl, hs, q1, q2, by rw [← h.1, q3]; simp⟩

/-- Non-vacuity: an open function that rejects every second time; the program returns nonzero. -/
example : ∃ ret r, speedMain (fun pk sk _ _ => some (0, pk, sk)) (fun sk sm _ _ => some ⟨0, sk, sm, 5⟩)
      (fun mout l _ _ _ => some ⟨if l = 0 then -1 else 0, mout, 1 - l⟩) 1 3 [] [] [] [] 0 1 (fun _ => []) [] [3, 5, 9] [1, 2, 3] =
        some (ret, r) ∧ ret ≠ 0 := by
  obtain ⟨m1, a1, p1, -⟩ := printResults_eq [3, 5, 9] (by decide) (by decide) (by decide)
  obtain ⟨m2, a2, p2, -⟩ := printResults_eq [1, 2, 3] (by decide) (by decide) (by decide)
  refine ⟨-1, ((m1, a1), (m2, a2)), ?_, by decide⟩
  simp only [speedMain, speedSign, speedOpen, orRet, p1, p2, Option.bind_eq_bind, Option.bind_some]
  rfl

/-! ### Non-vacuity -/

-- Readings that do not decrease, and their durations.
example : ([3, 5, 9, 9, 20] : List UInt64).IsChain (· ≤ ·) ∧ durations [3, 5, 9, 9, 20] = [2, 4, 0, 11] := by decide
example : IsMedian [2, 4, 0, 11] 4 ∧ IsMedian [2, 4, 0, 11] 2 ∧ ¬ IsMedian [2, 4, 0, 11] 3 ∧ ¬ IsMedian [2, 4, 0, 11] 11 := by
  refine ⟨⟨by decide, by decide, by decide⟩, ⟨by decide, by decide, by decide⟩, fun h => absurd h.1 (by decide), fun h => absurd h.2.1 (by decide)⟩
-- The default variants of the program.
example : (parseXmss 1).map (fun p => (p.d, p.tree_height, p.full_height)) = some (1, 10, 10) := by decide +kernel
example : ∀ e ∈ Registry.xmssmt, e.oid = 1 → e.name = "XMSSMT-SHA2_20/2_256" ∧ e.d ≤ e.h / e.d / 2 + 2 := by decide +kernel

end Xmss
