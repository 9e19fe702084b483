import Verif.Model.Keccak
import Verif.Spec.Fips202
import Mathlib.Tactic.IntervalCases
import Mathlib.Tactic.Ring
import Mathlib.Data.List.GetD
/-
The unrolled permutation of fips202.c is Keccak-f[1600].
-/
namespace Xmss

/-- Lane (x, y) of the local variables. -/
def KState.lane (s : KState) (x y : Nat) : Lane :=
  match y, x with
  | 0, 0 => s.ba | 0, 1 => s.be | 0, 2 => s.bi | 0, 3 => s.bo | 0, 4 => s.bu
  | 1, 0 => s.ga | 1, 1 => s.ge | 1, 2 => s.gi | 1, 3 => s.go | 1, 4 => s.gu
  | 2, 0 => s.ka | 2, 1 => s.ke | 2, 2 => s.ki | 2, 3 => s.ko | 2, 4 => s.ku
  | 3, 0 => s.ma | 3, 1 => s.me | 3, 2 => s.mi | 3, 3 => s.mo | 3, 4 => s.mu
  | 4, 0 => s.sa | 4, 1 => s.se | 4, 2 => s.si | 4, 3 => s.so | 4, 4 => s.su
  | _, _ => 0

/-- Rotation offsets as used in the code. -/
def rotOff (x y : Nat) : Nat :=
  match y, x with
  | 0, 0 => 0 | 0, 1 => 1 | 0, 2 => 62 | 0, 3 => 28 | 0, 4 => 27
  | 1, 0 => 36 | 1, 1 => 44 | 1, 2 => 6 | 1, 3 => 55 | 1, 4 => 20
  | 2, 0 => 3 | 2, 1 => 10 | 2, 2 => 43 | 2, 3 => 25 | 2, 4 => 39
  | 3, 0 => 41 | 3, 1 => 45 | 3, 2 => 15 | 3, 3 => 21 | 3, 4 => 8
  | 4, 0 => 18 | 4, 1 => 2 | 4, 2 => 61 | 4, 3 => 56 | 4, 4 => 14
  | _, _ => 0

section
variable (L : Nat → Nat → Lane)
def laneC (x : Nat) : Lane := L x 0 ^^^ L x 1 ^^^ L x 2 ^^^ L x 3 ^^^ L x 4
def laneD (x : Nat) : Lane := laneC L ((x + 4) % 5) ^^^ rol (laneC L ((x + 1) % 5)) 1
def laneT (x y : Nat) : Lane := L x y ^^^ laneD L x
def laneB (x y : Nat) : Lane := rol (laneT L ((x + 3 * y) % 5) x) (rotOff ((x + 3 * y) % 5) x)
def laneX (x y : Nat) : Lane := laneB L x y ^^^ (~~~ laneB L ((x + 1) % 5) y &&& laneB L ((x + 2) % 5) y)
end

theorem rol_zero (a : Lane) : rol a 0 = a := by
  have : a >>> (64 - 0) = 0#64 := by
    apply BitVec.eq_of_toNat_eq
    rw [BitVec.toNat_ushiftRight, Nat.shiftRight_eq_div_pow]
    exact Nat.div_eq_of_lt a.isLt
  rw [rol, this]
  simp

theorem halfAE_eq (rc : Lane) (s : KState) : keccakHalfAE rc s =
    { ba := laneX s.lane 0 0 ^^^ rc, be := laneX s.lane 1 0, bi := laneX s.lane 2 0, bo := laneX s.lane 3 0, bu := laneX s.lane 4 0
      ga := laneX s.lane 0 1, ge := laneX s.lane 1 1, gi := laneX s.lane 2 1, go := laneX s.lane 3 1, gu := laneX s.lane 4 1
      ka := laneX s.lane 0 2, ke := laneX s.lane 1 2, ki := laneX s.lane 2 2, ko := laneX s.lane 3 2, ku := laneX s.lane 4 2
      ma := laneX s.lane 0 3, me := laneX s.lane 1 3, mi := laneX s.lane 2 3, mo := laneX s.lane 3 3, mu := laneX s.lane 4 3
      sa := laneX s.lane 0 4, se := laneX s.lane 1 4, si := laneX s.lane 2 4, so := laneX s.lane 3 4, su := laneX s.lane 4 4 } := by
  simp only [keccakHalfAE, laneX, laneB, laneT, laneD, laneC, KState.lane, rotOff, rol_zero, Nat.reduceMul, Nat.reduceAdd, Nat.reduceMod,
    Nat.zero_add, Nat.mul_zero]

theorem halfEA_eq (rc : Lane) (s : KState) : keccakHalfEA rc s =
    { ba := laneX s.lane 0 0 ^^^ rc, be := laneX s.lane 1 0, bi := laneX s.lane 2 0, bo := laneX s.lane 3 0, bu := laneX s.lane 4 0
      ga := laneX s.lane 0 1, ge := laneX s.lane 1 1, gi := laneX s.lane 2 1, go := laneX s.lane 3 1, gu := laneX s.lane 4 1
      ka := laneX s.lane 0 2, ke := laneX s.lane 1 2, ki := laneX s.lane 2 2, ko := laneX s.lane 3 2, ku := laneX s.lane 4 2
      ma := laneX s.lane 0 3, me := laneX s.lane 1 3, mi := laneX s.lane 2 3, mo := laneX s.lane 3 3, mu := laneX s.lane 4 3
      sa := laneX s.lane 0 4, se := laneX s.lane 1 4, si := laneX s.lane 2 4, so := laneX s.lane 3 4, su := laneX s.lane 4 4 } := by
  simp only [keccakHalfEA, laneX, laneB, laneT, laneD, laneC, KState.lane, rotOff, rol_zero, Nat.reduceMul, Nat.reduceAdd, Nat.reduceMod,
    Nat.zero_add, Nat.mul_zero]

/-- One round on lanes. -/
def laneRound (rc : Lane) (L : Nat → Nat → Lane) (x y : Nat) : Lane :=
  if x = 0 ∧ y = 0 then laneX L x y ^^^ rc else laneX L x y

theorem halfAE_lane (rc : Lane) (s : KState) {x y : Nat} (hx : x < 5) (hy : y < 5) :
    (keccakHalfAE rc s).lane x y = laneRound rc s.lane x y := by
  rw [halfAE_eq]
  interval_cases x <;> interval_cases y <;> rfl

theorem halfEA_lane (rc : Lane) (s : KState) {x y : Nat} (hx : x < 5) (hy : y < 5) :
    (keccakHalfEA rc s).lane x y = laneRound rc s.lane x y := by
  rw [halfEA_eq]
  interval_cases x <;> interval_cases y <;> rfl

/-! Bits -/

theorem rol_bit (a : Lane) {o z : Nat} (ho : o < 64) (hz : z < 64) :
    (rol a o).getLsbD z = a.getLsbD ((z + (64 - o)) % 64) := by
  rw [rol, BitVec.getLsbD_xor, BitVec.getLsbD_shiftLeft, BitVec.getLsbD_ushiftRight]
  by_cases h : z < o
  · have e : (z + (64 - o)) % 64 = 64 - o + z := by omega
    rw [e]
    simp [h]
  · have e : (z + (64 - o)) % 64 = z - o := by omega
    have h2 : a.getLsbD (64 - o + z) = false := BitVec.getLsbD_of_ge _ _ (by omega)
    rw [e, h2]
    simp [h, hz]

theorem rotOff_eq : ∀ x < 5, ∀ y < 5, rotOff x y = Fips202.rhoOffset x y % 64 ∧ rotOff x y < 64 := by decide +kernel

theorem RC_eq : ∀ ir < 24, ∀ z < 64, (keccakRC.getD ir 0).getLsbD z = Fips202.RCbit ir z := by decide +kernel

/-- The bits of the lanes `L` are the array `A`. -/
def Agrees (A : Fips202.StateArray) (L : Nat → Nat → Lane) : Prop :=
  ∀ x y z, x < 5 → y < 5 → z < 64 → A x y z = (L x y).getLsbD z

theorem round_agrees {A : Fips202.StateArray} {L : Nat → Nat → Lane} (h : Agrees A L) (ir : Nat) (hir : ir < 24) :
    Agrees (Fips202.Rnd A ir) (laneRound (keccakRC.getD ir 0) L) := by
  have hC : ∀ x z, x < 5 → z < 64 → (A x 0 z ^^ A x 1 z ^^ A x 2 z ^^ A x 3 z ^^ A x 4 z) = (laneC L x).getLsbD z := by
    intro x z hx hz
    simp only [laneC, BitVec.getLsbD_xor, h x _ z hx (show 0 < 5 by omega) hz, h x _ z hx (show 1 < 5 by omega) hz,
      h x _ z hx (show 2 < 5 by omega) hz, h x _ z hx (show 3 < 5 by omega) hz, h x _ z hx (show 4 < 5 by omega) hz]
  have hT : ∀ x y z, x < 5 → y < 5 → z < 64 → Fips202.theta A x y z = (laneT L x y).getLsbD z := by
    intro x y z hx hy hz
    simp only [Fips202.theta]
    rw [h x y z hx hy hz, hC _ _ (Nat.mod_lt _ (by omega)) hz, hC _ _ (Nat.mod_lt _ (by omega)) (Nat.mod_lt _ (by omega)),
      laneT, laneD, BitVec.getLsbD_xor, BitVec.getLsbD_xor, rol_bit _ (by omega) hz]
  have hR : ∀ x y z, x < 5 → y < 5 → z < 64 →
      Fips202.rho (Fips202.theta A) x y z = (rol (laneT L x y) (rotOff x y)).getLsbD z := by
    intro x y z hx hy hz
    obtain ⟨e1, e2⟩ := rotOff_eq x hx y hy
    rw [Fips202.rho, rol_bit _ e2 hz, hT x y _ hx hy (by omega)]
    congr 1
    omega
  have hB : ∀ x y z, x < 5 → y < 5 → z < 64 →
      Fips202.pi (Fips202.rho (Fips202.theta A)) x y z = (laneB L x y).getLsbD z := by
    intro x y z hx hy hz
    rw [Fips202.pi, hR _ _ _ (Nat.mod_lt _ (by omega)) hx hz, laneB]
  have hX : ∀ x y z, x < 5 → y < 5 → z < 64 →
      Fips202.chi (Fips202.pi (Fips202.rho (Fips202.theta A))) x y z = (laneX L x y).getLsbD z := by
    intro x y z hx hy hz
    rw [Fips202.chi, hB x y z hx hy hz, hB _ y z (Nat.mod_lt _ (by omega)) hy hz, hB _ y z (Nat.mod_lt _ (by omega)) hy hz,
      laneX, BitVec.getLsbD_xor, BitVec.getLsbD_and, BitVec.getLsbD_not]
    simp [hz]
  intro x y z hx hy hz
  rw [Fips202.Rnd, Fips202.iota, laneRound, hX x y z hx hy hz]
  split
  · rw [BitVec.getLsbD_xor, RC_eq ir hir z hz]
  · rfl

theorem Agrees.congr {A : Fips202.StateArray} {L L' : Nat → Nat → Lane} (h : Agrees A L)
    (he : ∀ x y, x < 5 → y < 5 → L x y = L' x y) : Agrees A L' := by
  intro x y z hx hy hz
  rw [h x y z hx hy hz, he x y hx hy]

theorem rounds_agree : ∀ (k round : Nat) (A : Fips202.StateArray) (s : KState), round + 2 * k ≤ 24 → Agrees A s.lane →
    Agrees (Fips202.rounds (2 * k) round A) (keccakRounds k round s).lane := by
  intro k
  induction k with
  | zero => intro round A s _ h; exact h
  | succ k ih =>
    intro round A s hr h
    rw [show 2 * (k + 1) = 2 * k + 1 + 1 by omega, Fips202.rounds, Fips202.rounds, keccakRounds]
    refine ih (round + 2) _ _ (by omega) ?_
    have h1 := (round_agrees h round (by omega)).congr fun x y hx hy => (halfAE_lane _ s hx hy).symm
    exact (round_agrees h1 (round + 1) (by omega)).congr fun x y hx hy => (halfEA_lane _ _ hx hy).symm

/-- The bits of a list of lanes. -/
def laneBits (st : List Lane) : List Bool := st.flatMap fun l => (List.range 64).map l.getLsbD

theorem laneBits_length (st : List Lane) : (laneBits st).length = 64 * st.length := by
  induction st with
  | nil => rfl
  | cons l st ih =>
    rw [laneBits] at *
    rw [List.flatMap_cons, List.length_append, ih]
    simp only [List.length_map, List.length_range, List.length_cons]
    ring

theorem laneBits_getD (st : List Lane) : ∀ (j z : Nat), z < 64 →
    (laneBits st).getD (64 * j + z) false = (st.getD j 0).getLsbD z := by
  induction st with
  | nil => intro j z _; simp [laneBits]
  | cons l st ih =>
    intro j z hz
    rw [laneBits, List.flatMap_cons]
    cases j with
    | zero =>
      rw [List.getD_append _ _ _ _ (by simpa using hz)]
      simp [List.getD_eq_getElem?_getD, hz]
    | succ j =>
      rw [List.getD_append_right _ _ _ _ (by simp; omega)]
      have := ih j z hz
      rw [laneBits] at this
      simp only [List.length_map, List.length_range, List.getD_cons_succ]
      rw [← this]
      congr 1
      omega

theorem copyFromState_lane (st : List Lane) {x y : Nat} (hx : x < 5) (hy : y < 5) :
    (copyFromState st).lane x y = st.getD (5 * y + x) 0 := by
  interval_cases x <;> interval_cases y <;> rfl

theorem copyToState_getD (s : KState) {x y : Nat} (hx : x < 5) (hy : y < 5) :
    (copyToState s).getD (5 * y + x) 0 = s.lane x y := by
  interval_cases x <;> interval_cases y <;> rfl

theorem getElem_eq_getD_false (l : List Bool) (i : Nat) (h : i < l.length) : l[i] = l.getD i false :=
  (List.getD_eq_getElem l false h).symm

/-- The permutation of fips202.c on the bits of the state. -/
theorem keccakPermute_bits (st : List Lane) : laneBits (keccakPermute st) = Fips202.keccakF (laneBits st) := by
  have h0 : Agrees (Fips202.toArray (laneBits st)) (copyFromState st).lane := by
    intro x y z hx hy hz
    rw [Fips202.toArray, copyFromState_lane st hx hy, laneBits_getD _ _ _ hz]
  have h := rounds_agree 12 0 (Fips202.toArray (laneBits st)) (copyFromState st) (by omega) h0
  rw [show 2 * 12 = 24 from rfl] at h
  rw [Fips202.keccakF, Fips202.toString]
  generalize Fips202.rounds 24 0 (Fips202.toArray (laneBits st)) = A at h ⊢
  rw [keccakPermute]
  generalize keccakRounds 12 0 (copyFromState st) = q at h ⊢
  apply List.ext_getElem
  · rw [laneBits_length, List.length_map, List.length_range]; rfl
  · intro i h1 h2
    have hi : i < 1600 := by simpa using h2
    have ei : i = 64 * (5 * (i / 320) + i / 64 % 5) + i % 64 := by omega
    have hx : i / 64 % 5 < 5 := Nat.mod_lt _ (by omega)
    have hy : i / 320 < 5 := by omega
    have hz : i % 64 < 64 := Nat.mod_lt _ (by omega)
    rw [getElem_eq_getD_false]
    conv_lhs => rw [ei]
    rw [laneBits_getD _ _ _ hz, copyToState_getD _ hx hy]
    simp only [List.getElem_map, List.getElem_range]
    exact (h _ _ _ hx hy hz).symm

end Xmss
