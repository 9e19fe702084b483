import Mathlib.Algebra.BigOperators.Group.Finset.Basic
import Mathlib.Algebra.BigOperators.Intervals
import Mathlib.Algebra.Order.BigOperators.Group.Finset
import Mathlib.Tactic.Ring
import Mathlib.Tactic.Linarith
/-
The scheduling argument for the treehash instances of the BDS traversal, on numbers only.

`p i` is the number of leaves that instance `i` has consumed; `p i = 2^i` means that it is finished.
-/
namespace Xmss.Sched
open Finset

/-- Structure of the progress counters: a higher instance that is under way is aligned to every lower one under way. -/
structure Nested (M : Nat) (p : Nat → Nat) : Prop where
  le : ∀ i < M, p i ≤ 2 ^ i
  dvd : ∀ i j, i < j → j < M → 0 < p i → p i < 2 ^ i → p j < 2 ^ j → 2 ^ i ∣ p j

/-- What is known about the instance that is updated next. -/
structure Pick (M : Nat) (p : Nat → Nat) (c : Nat) : Prop where
  lt : c < M
  incomplete : p c < 2 ^ c
  case : (p c = 0 ∧ (∀ i < c, p i = 2 ^ i) ∧ ∀ j < M, c < j → p j < 2 ^ j → 2 ^ c ∣ p j) ∨
    (0 < p c ∧ ∀ i < c, p i = 2 ^ i ∨ (p i = 0 ∧ ¬ 2 ^ i ∣ p c))

/-- One update of instance `c`. -/
def bump (p : Nat → Nat) (c : Nat) : Nat → Nat := fun i => if i = c then p i + 1 else p i

/-- First time after `t` at which the node of instance `i` is needed. -/
def dl (t i : Nat) : Nat := (t / 2 ^ (i + 1) + 1) * 2 ^ (i + 1)

/-- Work that a higher instance `j` may still do before instance `h` gets its turn. -/
def crem (p : Nat → Nat) (h j : Nat) : Nat := (2 ^ h - p j % 2 ^ h) % 2 ^ h

/-- Twice an upper bound for the number of updates before instance `h` is finished. -/
def W (M : Nat) (p : Nat → Nat) (t h : Nat) : Nat :=
  2 * (2 ^ h - p h) + 2 * (∑ j ∈ Ico (h + 1) M, crem p h j) + ∑ i ∈ range h, (2 * (2 ^ i - p i) + (dl t h - dl t i))

/-- Every unfinished instance can be finished in time with `b` more updates now and `u` per later step. -/
def InTime (M u : Nat) (p : Nat → Nat) (t b : Nat) : Prop :=
  ∀ h < M, p h < 2 ^ h → W M p t h ≤ 2 * (u * (dl t h - t - 1) + b)

/-- Unfinished instances work on nodes inside the tree. -/
def Active (M H : Nat) (p : Nat → Nat) (t : Nat) : Prop :=
  ∀ j < M, p j < 2 ^ j → 2 ^ (j + 1) ≤ t ∧ dl t j + 2 ^ (j + 1) ≤ 2 ^ H

theorem sum_change {s : Finset Nat} {c : Nat} (hc : c ∈ s) {f g : Nat → Nat} (h : ∀ i ∈ s, i ≠ c → f i = g i) :
    ∑ i ∈ s, f i + g c = ∑ i ∈ s, g i + f c := by
  rw [← Finset.add_sum_erase s f hc, ← Finset.add_sum_erase s g hc]
  have : ∑ i ∈ s.erase c, f i = ∑ i ∈ s.erase c, g i :=
    Finset.sum_congr rfl (fun i hi => h i (Finset.mem_of_mem_erase hi) (Finset.ne_of_mem_erase hi))
  omega

theorem dl_gt (t i : Nat) : t < dl t i := by
  unfold dl
  have := Nat.lt_div_mul_add (a := t) (Nat.two_pow_pos (i + 1))
  rw [Nat.add_mul, one_mul]; exact this

theorem dl_le (t i : Nat) : dl t i ≤ t + 2 ^ (i + 1) := by
  unfold dl
  have := Nat.div_mul_le_self t (2 ^ (i + 1))
  rw [Nat.add_mul, one_mul]; omega

theorem dl_dvd (t i : Nat) : 2 ^ (i + 1) ∣ dl t i := Dvd.intro_left _ rfl

/-- `dl t i` is the least multiple of `2^(i+1)` above `t`. -/
theorem dl_min {t i x : Nat} (hx : 2 ^ (i + 1) ∣ x) (h : t < x) : dl t i ≤ x := by
  obtain ⟨k, rfl⟩ := hx
  unfold dl
  rw [mul_comm]
  apply Nat.mul_le_mul_left
  have : t / 2 ^ (i + 1) < k := Nat.div_lt_of_lt_mul h
  omega

theorem dl_mono {t i h : Nat} (hi : i ≤ h) : dl t i ≤ dl t h :=
  dl_min ((pow_dvd_pow 2 (by omega)).trans (dl_dvd t h)) (dl_gt t h)

theorem dl_of_dvd {t i : Nat} (h : 2 ^ (i + 1) ∣ t) : dl t i = t + 2 ^ (i + 1) := by
  unfold dl; rw [Nat.add_mul, one_mul, Nat.div_mul_cancel h]

theorem dl_succ {t i : Nat} (h : ¬ 2 ^ (i + 1) ∣ t + 1) : dl (t + 1) i = dl t i := by
  unfold dl; rw [Nat.succ_div_of_not_dvd h]

theorem dl_eq_of_dvd {t i : Nat} (h : 2 ^ (i + 1) ∣ t + 1) : dl t i = t + 1 := by
  have h1 := dl_min h (Nat.lt_succ_self t)
  have h2 := dl_gt t i
  omega

theorem bump_ne {p : Nat → Nat} {c i : Nat} (h : i ≠ c) : bump p c i = p i := by simp [bump, h]
theorem bump_self {p : Nat → Nat} {c : Nat} : bump p c c = p c + 1 := by simp [bump]

theorem Nested.bump {M : Nat} {p : Nat → Nat} {c : Nat} (hn : Nested M p) (hp : Pick M p c) : Nested M (bump p c) := by
  constructor
  · intro i hi
    by_cases h : i = c
    · subst h; rw [bump_self]; exact hp.incomplete
    · rw [bump_ne h]; exact hn.le i hi
  · intro i j hij hj h0 h1 h2
    by_cases hi : i = c
    · subst hi
      rw [bump_ne (by omega)] at h2 ⊢
      rcases hp.case with ⟨hz, _, ha⟩ | ⟨hz, _⟩
      · exact ha j hj hij h2
      · exact hn.dvd i j hij hj hz hp.incomplete h2
    · rw [bump_ne hi] at h0 h1
      by_cases hjc : j = c
      · subst hjc
        exfalso
        rcases hp.case with ⟨_, ha, _⟩ | ⟨_, ha⟩
        · have := ha i hij; omega
        · rcases ha i hij with h | h <;> omega
      · rw [bump_ne hjc] at h2 ⊢
        exact hn.dvd i j hij hj h0 h1 h2

/-- An update brings every unfinished instance one step closer to its end. -/
theorem W_bump {M : Nat} {p : Nat → Nat} {c t h : Nat} (hn : Nested M p) (hp : Pick M p c) (hM : h < M)
    (hh : bump p c h < 2 ^ h) : W M (bump p c) t h + 2 = W M p t h := by
  have hinc := hp.incomplete
  rcases Nat.lt_trichotomy c h with hc | hc | hc
  · -- a lower instance
    have e1 : bump p c h = p h := bump_ne (by omega)
    have e2 : ∑ j ∈ Ico (h + 1) M, crem (bump p c) h j = ∑ j ∈ Ico (h + 1) M, crem p h j :=
      Finset.sum_congr rfl (fun j hj => by
        have := (Finset.mem_Ico.mp hj).1
        unfold crem; rw [bump_ne (by omega)])
    have e3 := sum_change (s := range h) (c := c) (Finset.mem_range.mpr hc)
      (f := fun i => 2 * (2 ^ i - bump p c i) + (dl t h - dl t i)) (g := fun i => 2 * (2 ^ i - p i) + (dl t h - dl t i))
      (fun i _ hi => by simp only [bump_ne hi])
    simp only [bump_self] at e3
    unfold W
    rw [e1, e2]
    omega
  · subst hc
    have e2 : ∑ j ∈ Ico (c + 1) M, crem (bump p c) c j = ∑ j ∈ Ico (c + 1) M, crem p c j :=
      Finset.sum_congr rfl (fun j hj => by
        have := (Finset.mem_Ico.mp hj).1
        unfold crem; rw [bump_ne (by omega)])
    have e3 : ∑ i ∈ range c, (2 * (2 ^ i - bump p c i) + (dl t c - dl t i)) =
        ∑ i ∈ range c, (2 * (2 ^ i - p i) + (dl t c - dl t i)) :=
      Finset.sum_congr rfl (fun i hi => by
        have := Finset.mem_range.mp hi
        rw [bump_ne (by omega)])
    unfold W
    rw [e2, e3, bump_self]
    omega
  · -- a higher instance: it is not aligned to 2^h
    have e1 : bump p c h = p h := bump_ne (by omega)
    rw [e1] at hh
    have hnd : ¬ 2 ^ h ∣ p c := by
      rcases hp.case with ⟨_, ha, _⟩ | ⟨_, ha⟩
      · have := ha h hc; omega
      · rcases ha h hc with h1 | h1
        · omega
        · exact h1.2
    have e3 : ∑ i ∈ range h, (2 * (2 ^ i - bump p c i) + (dl t h - dl t i)) =
        ∑ i ∈ range h, (2 * (2 ^ i - p i) + (dl t h - dl t i)) :=
      Finset.sum_congr rfl (fun i hi => by
        have := Finset.mem_range.mp hi
        rw [bump_ne (by omega)])
    have e2 := sum_change (s := Ico (h + 1) M) (c := c) (Finset.mem_Ico.mpr ⟨hc, hp.lt⟩)
      (f := fun j => crem (bump p c) h j) (g := fun j => crem p h j)
      (fun i _ hi => by simp only [crem, bump_ne hi])
    have e4 : crem (bump p c) h c + 1 = crem p h c := by
      unfold crem
      rw [bump_self]
      have hpos : 0 < 2 ^ h := Nat.two_pow_pos h
      have hm : p c % 2 ^ h ≠ 0 := fun h0 => hnd (Nat.dvd_of_mod_eq_zero h0)
      have hlt := Nat.mod_lt (p c) hpos
      rw [Nat.mod_eq_of_lt (a := 2 ^ h - p c % 2 ^ h) (by omega)]
      by_cases hlast : p c % 2 ^ h + 1 = 2 ^ h
      · have : (p c + 1) % 2 ^ h = 0 := by
          rw [← Nat.mod_add_mod, hlast, Nat.mod_self]
        rw [this, Nat.sub_zero, Nat.mod_self]; omega
      · have : (p c + 1) % 2 ^ h = p c % 2 ^ h + 1 := by
          rw [← Nat.mod_add_mod, Nat.mod_eq_of_lt (by omega)]
        rw [this, Nat.mod_eq_of_lt (by omega)]
        omega
    unfold W
    rw [e1, e3]
    omega

theorem InTime.bump {M u : Nat} {p : Nat → Nat} {c t b : Nat} (hn : Nested M p) (hp : Pick M p c)
    (ht : InTime M u p t (b + 1)) : InTime M u (bump p c) t b := by
  intro h hM hh
  have hw := W_bump (t := t) hn hp hM hh
  have hh' : p h < 2 ^ h := by
    by_cases hc : h = c
    · subst hc; exact hp.incomplete
    · rwa [bump_ne hc] at hh
  have := ht h hM hh'
  omega

theorem Active.bump {M H : Nat} {p : Nat → Nat} {c t : Nat} (hp : Pick M p c) (ha : Active M H p t) :
    Active M H (bump p c) t := by
  intro j hj h
  apply ha j hj
  by_cases hc : j = c
  · subst hc; exact hp.incomplete
  · rwa [bump_ne hc] at h

/-- Instances that start again at time `t`. -/
def starts (M H t i : Nat) : Prop := i < M ∧ 2 ^ (i + 1) ∣ t ∧ t + 3 * 2 ^ i < 2 ^ H

instance (M H t i : Nat) : Decidable (starts M H t i) := by unfold starts; infer_instance

/-- Progress after the restarts at time `t`. -/
def restart (M H t : Nat) (p : Nat → Nat) : Nat → Nat := fun i => if starts M H t i then 0 else p i

/-- Instances are finished when their node is needed. -/
theorem done_at_deadline {M u : Nat} {p : Nat → Nat} {t : Nat} (hn : Nested M p) (ht : InTime M u p t 0) {i : Nat} (hi : i < M)
    (hd : 2 ^ (i + 1) ∣ t + 1) : p i = 2 ^ i := by
  by_contra hne
  have hlt : p i < 2 ^ i := lt_of_le_of_ne (hn.le i hi) hne
  have h1 := ht i hi hlt
  rw [dl_eq_of_dvd hd] at h1
  have h2 : t + 1 - t - 1 = 0 := by omega
  rw [h2] at h1
  unfold W at h1
  omega

theorem Nested.restart {M H t : Nat} {p : Nat → Nat} (hn : Nested M p) : Nested M (restart M H t p) := by
  constructor
  · intro i hi
    unfold Sched.restart
    split
    · exact Nat.zero_le _
    · exact hn.le i hi
  · intro i j hij hj h0 h1 h2
    unfold Sched.restart at *
    split at h0
    · omega
    · rename_i hi
      rw [if_neg hi] at h1
      split
      · exact dvd_zero _
      · rename_i hj'
        rw [if_neg hj'] at h2
        exact hn.dvd i j hij hj h0 h1 h2

theorem Active.restart {M H t : Nat} {p : Nat → Nat} (ht : Active M H p t) (hdone : ∀ i < M, 2 ^ (i + 1) ∣ t + 1 → p i = 2 ^ i) :
    Active M H (restart M H (t + 1) p) (t + 1) := by
  intro j hj h
  unfold Sched.restart at h
  split at h
  · rename_i hs
    obtain ⟨_, h1, h2⟩ := hs
    refine ⟨Nat.le_of_dvd (by omega) h1, ?_⟩
    rw [dl_of_dvd h1]
    -- t+1 + 2^(j+2) is a multiple of 2^(j+1), and t+1+3*2^j < 2^H
    have hH : j + 1 ≤ H := by
      by_contra hcon
      have : 2 ^ H ≤ 2 ^ j := Nat.pow_le_pow_right (by omega) (by omega)
      omega
    obtain ⟨k, hk⟩ := h1
    obtain ⟨m, rfl⟩ : ∃ m, H = j + 1 + m := ⟨H - j - 1, by omega⟩
    rw [pow_add 2 (j + 1) m] at h2 ⊢
    rw [hk] at h2 ⊢
    have hpj : 2 ^ (j + 1) = 2 * 2 ^ j := by ring
    have hlt : 2 ^ (j + 1) * (k + 1) < 2 ^ (j + 1) * 2 ^ m := by
      rw [Nat.mul_add, mul_one]; rw [hpj] at h2 ⊢; omega
    have hk2 : k + 1 < 2 ^ m := Nat.lt_of_mul_lt_mul_left hlt
    calc 2 ^ (j + 1) * k + 2 ^ (j + 1) + 2 ^ (j + 1) = 2 ^ (j + 1) * (k + 2) := by ring
      _ ≤ 2 ^ (j + 1) * 2 ^ m := Nat.mul_le_mul_left _ (by omega)
  · have h1 := ht j hj h
    have hnd : ¬ 2 ^ (j + 1) ∣ t + 1 := fun hd => by have := hdone j hj hd; omega
    rw [dl_succ hnd]
    exact ⟨by omega, h1.2⟩

theorem Active.height {M H t : Nat} {p : Nat → Nat} (ht : Active M H p t) {j : Nat} (hj : j < M) (h : p j < 2 ^ j) : j + 3 ≤ H := by
  obtain ⟨h1, h2⟩ := ht j hj h
  have h3 : 2 * 2 ^ (j + 1) ≤ dl t j := by
    unfold dl
    have : 1 ≤ t / 2 ^ (j + 1) := (Nat.one_le_div_iff (Nat.two_pow_pos _)).mpr h1
    exact Nat.mul_le_mul_right _ (by omega)
  by_contra hcon
  have h4 : 2 ^ H ≤ 2 ^ (j + 2) := Nat.pow_le_pow_right (by omega) (by omega)
  have h5 : 2 ^ (j + 2) = 2 * 2 ^ (j + 1) := by ring
  have := Nat.two_pow_pos (j + 1)
  omega

/-- At most one higher instance is not aligned. -/
theorem crem_sum_le {M : Nat} {p : Nat → Nat} (hn : Nested M p) (h : Nat) :
    ∑ j ∈ Ico (h + 1) M, crem p h j ≤ 2 ^ h - 1 := by
  have hpos : 0 < 2 ^ h := Nat.two_pow_pos h
  have hle : ∀ j, crem p h j ≤ 2 ^ h - 1 := fun j => by
    have := Nat.mod_lt (2 ^ h - p j % 2 ^ h) hpos
    unfold crem; omega
  have hz : ∀ j, 2 ^ h ∣ p j → crem p h j = 0 := fun j hd => by
    unfold crem; rw [Nat.mod_eq_zero_of_dvd hd, Nat.sub_zero, Nat.mod_self]
  by_cases hall : ∀ j ∈ Ico (h + 1) M, crem p h j = 0
  · rw [Finset.sum_eq_zero hall]; exact Nat.zero_le _
  · push Not at hall
    obtain ⟨c, hc, hcz⟩ := hall
    have hcm := Finset.mem_Ico.mp hc
    have hcd : ¬ 2 ^ h ∣ p c := fun hd => hcz (hz c hd)
    have hcp : 0 < p c := Nat.pos_of_ne_zero (fun h0 => hcd (by rw [h0]; exact dvd_zero _))
    have hclt : p c < 2 ^ c := lt_of_le_of_ne (hn.le c hcm.2) (fun h0 => hcd (by rw [h0]; exact pow_dvd_pow 2 (by omega)))
    rw [Finset.sum_eq_single_of_mem c hc]
    · exact hle c
    · intro j hj hjc
      have hjm := Finset.mem_Ico.mp hj
      apply hz
      by_cases hjfull : p j = 2 ^ j
      · rw [hjfull]; exact pow_dvd_pow 2 (by omega)
      have hjlt : p j < 2 ^ j := lt_of_le_of_ne (hn.le j hjm.2) hjfull
      by_cases hj0 : p j = 0
      · rw [hj0]; exact dvd_zero _
      rcases Nat.lt_or_gt_of_ne hjc with hlt | hgt
      · exfalso
        apply hcd
        exact (pow_dvd_pow 2 (by omega)).trans (hn.dvd j c hlt hcm.2 (by omega) hjlt hclt)
      · exact (pow_dvd_pow 2 (by omega)).trans (hn.dvd c j hgt hjm.2 hcp hclt hjlt)

/-- Time step: restarts at `t + 1`. -/
theorem InTime.restart {M H u t : Nat} {p : Nat → Nat} (hu : min M (H - 2) ≤ 2 * u) (hn : Nested M p) (ha : Active M H p t)
    (ht : InTime M u p t 0) : InTime M u (restart M H (t + 1) p) (t + 1) u := by
  have hdone : ∀ i < M, 2 ^ (i + 1) ∣ t + 1 → p i = 2 ^ i := fun i hi hd => done_at_deadline hn ht hi hd
  have hn' := hn.restart (H := H) (t := t + 1)
  have ha' := ha.restart hdone
  intro h hM hh
  by_cases hs : 2 ^ (h + 1) ∣ t + 1
  · -- instance h starts now, and so do all lower ones
    have hdl : ∀ i ≤ h, dl (t + 1) i = t + 1 + 2 ^ (i + 1) := fun i hi =>
      dl_of_dvd ((pow_dvd_pow 2 (by omega)).trans hs)
    have hsum : ∑ i ∈ range h, (2 * (2 ^ i - Sched.restart M H (t + 1) p i) + (dl (t + 1) h - dl (t + 1) i)) ≤
        h * 2 ^ (h + 1) := by
      calc _ ≤ ∑ _i ∈ range h, 2 ^ (h + 1) := by
            apply Finset.sum_le_sum
            intro i hi
            have hi' := Finset.mem_range.mp hi
            rw [hdl h (le_refl _), hdl i (by omega)]
            have h1 : 2 ^ (i + 1) = 2 * 2 ^ i := by ring
            have h2 : 2 ^ (i + 1) ≤ 2 ^ (h + 1) := Nat.pow_le_pow_right (by omega) (by omega)
            omega
        _ = h * 2 ^ (h + 1) := by simp
    have hH := ha'.height hM hh
    have hrhs : u * (dl (t + 1) h - (t + 1) - 1) + u = u * 2 ^ (h + 1) := by
      rw [hdl h (le_refl _)]
      have h1 : t + 1 + 2 ^ (h + 1) - (t + 1) - 1 + 1 = 2 ^ (h + 1) := by
        have := Nat.two_pow_pos (h + 1); omega
      rw [← Nat.mul_succ, Nat.succ_eq_add_one, h1]
    rw [hrhs]
    have h2h : 2 * (2 ^ h - Sched.restart M H (t + 1) p h) ≤ 2 ^ (h + 1) := by
      have : 2 ^ (h + 1) = 2 * 2 ^ h := by ring
      omega
    by_cases hbig : h + 2 ≤ 2 * u
    · have hc := crem_sum_le hn' h
      have h3 : (h + 2) * 2 ^ (h + 1) ≤ 2 * u * 2 ^ (h + 1) := Nat.mul_le_mul_right _ hbig
      have h4 : 2 * (∑ j ∈ Ico (h + 1) M, crem (Sched.restart M H (t + 1) p) h j) ≤ 2 ^ (h + 1) := by
        have : 2 ^ (h + 1) = 2 * 2 ^ h := by ring
        omega
      unfold W
      have h5 : (h + 2) * 2 ^ (h + 1) = h * 2 ^ (h + 1) + 2 ^ (h + 1) + 2 ^ (h + 1) := by ring
      have h6 : 2 * (u * 2 ^ (h + 1)) = 2 * u * 2 ^ (h + 1) := by ring
      omega
    · have hc : ∑ j ∈ Ico (h + 1) M, crem (Sched.restart M H (t + 1) p) h j = 0 := by
        apply Finset.sum_eq_zero
        intro j hj
        have hjm := Finset.mem_Ico.mp hj
        have hfull : Sched.restart M H (t + 1) p j = 2 ^ j := by
          by_contra hne
          have hlt := lt_of_le_of_ne (hn'.le j hjm.2) hne
          have := ha'.height hjm.2 hlt
          omega
        unfold crem
        rw [hfull, Nat.mod_eq_zero_of_dvd (pow_dvd_pow 2 (by omega)), Nat.sub_zero, Nat.mod_self]
      have h3 : (h + 1) * 2 ^ (h + 1) ≤ 2 * u * 2 ^ (h + 1) := Nat.mul_le_mul_right _ (by omega)
      unfold W
      rw [hc]
      have h5 : (h + 1) * 2 ^ (h + 1) = h * 2 ^ (h + 1) + 2 ^ (h + 1) := by ring
      have h6 : 2 * (u * 2 ^ (h + 1)) = 2 * u * 2 ^ (h + 1) := by ring
      omega
  · -- the deadline of h is not reached
    have hns : ∀ j, h ≤ j → ¬ starts M H (t + 1) j := fun j hj hst => hs ((pow_dvd_pow 2 (by omega)).trans hst.2.1)
    have hre : ∀ j, h ≤ j → Sched.restart M H (t + 1) p j = p j := fun j hj => if_neg (hns j hj)
    rw [hre h (le_refl _)] at hh
    have h1 := ht h hM hh
    have hD := dl_succ hs
    have hgt := dl_gt (t + 1) h
    have hrhs : u * (dl (t + 1) h - (t + 1) - 1) + u = u * (dl t h - t - 1) := by
      rw [hD] at *
      have : dl t h - t - 1 = dl t h - (t + 1) - 1 + 1 := by omega
      rw [this, Nat.mul_succ]
    rw [hrhs]
    have hW : W M (Sched.restart M H (t + 1) p) (t + 1) h ≤ W M p t h := by
      unfold W
      rw [hre h (le_refl _)]
      have e2 : ∑ j ∈ Ico (h + 1) M, crem (Sched.restart M H (t + 1) p) h j = ∑ j ∈ Ico (h + 1) M, crem p h j :=
        Finset.sum_congr rfl (fun j hj => by
          have := (Finset.mem_Ico.mp hj).1
          unfold crem; rw [hre j (by omega)])
      rw [e2]
      apply Nat.add_le_add_left
      apply Finset.sum_le_sum
      intro i hi
      have hi' := Finset.mem_range.mp hi
      rw [hD]
      by_cases hd : 2 ^ (i + 1) ∣ t + 1
      · have hpi := hdone i (by omega) hd
        rw [dl_of_dvd hd, dl_eq_of_dvd hd]
        have h3 : t + 1 + 2 ^ (i + 1) ≤ dl t h := by
          have hle : dl (t + 1) i ≤ dl (t + 1) h := dl_mono (by omega)
          rw [dl_of_dvd hd, hD] at hle
          exact hle
        have h4 : 2 ^ (i + 1) = 2 * 2 ^ i := by ring
        have h5 : 2 ^ i - Sched.restart M H (t + 1) p i ≤ 2 ^ i := Nat.sub_le _ _
        omega
      · rw [dl_succ hd]
        have : Sched.restart M H (t + 1) p i = p i := if_neg (fun hst => hd hst.2.1)
        rw [this]
    omega

end Xmss.Sched
