/-
FIPS 202 (SHA-3 standard), written at the level of bits, without reference to the C code: the step mappings of
section 3.2, Keccak-p[1600, 24], the sponge construction of section 4, pad10*1, and SHAKE128/SHAKE256 of section 6.2.
w = 64, l = 6, b = 1600 throughout.
-/
namespace Fips202

/-- A state array A[x, y, z] (section 3.1); only indices x, y < 5 and z < 64 matter. -/
abbrev StateArray := Nat → Nat → Nat → Bool

/-- Section 3.1.2: A[x,y,z] = S[w(5y+x)+z]. -/
def toArray (S : List Bool) : StateArray := fun x y z => S.getD (64 * (5 * y + x) + z) false

/-- Section 3.1.3: the string with that property. -/
def toString (A : StateArray) : List Bool := (List.range 1600).map fun i => A (i / 64 % 5) (i / 320) (i % 64)

/-- Algorithm 1: θ. -/
def theta (A : StateArray) : StateArray :=
  let C := fun x z => A x 0 z ^^ A x 1 z ^^ A x 2 z ^^ A x 3 z ^^ A x 4 z
  let D := fun x z => C ((x + 4) % 5) z ^^ C ((x + 1) % 5) ((z + 63) % 64)
  fun x y z => A x y z ^^ D x z

/-- Algorithm 2: the pair (x, y) in iteration t. -/
def rhoWalk : Nat → Nat × Nat
  | 0 => (1, 0)
  | t + 1 => let q := rhoWalk t; (q.2, (2 * q.1 + 3 * q.2) % 5)

/-- Algorithm 2: the offset (t+1)(t+2)/2 for the t with (x, y) = rhoWalk t; 0 for (0, 0), which is not visited. -/
def rhoOffset (x y : Nat) : Nat :=
  match (List.range 24).find? (fun t => rhoWalk t = (x, y)) with
  | some t => (t + 1) * (t + 2) / 2
  | none => 0

/-- Algorithm 2: ρ, A'[x,y,z] = A[x,y,(z - (t+1)(t+2)/2) mod w]. -/
def rho (A : StateArray) : StateArray := fun x y z => A x y (((z : Int) - rhoOffset x y) % 64).toNat

/-- Algorithm 3: π. -/
def pi (A : StateArray) : StateArray := fun x y z => A ((x + 3 * y) % 5) x z

/-- Algorithm 4: χ. -/
def chi (A : StateArray) : StateArray :=
  fun x y z => A x y z ^^ ((A ((x + 1) % 5) y z ^^ true) && A ((x + 2) % 5) y z)

/-- Algorithm 5, steps 3 a-f, on an 8-bit string. -/
def rcStep (R : List Bool) : List Bool :=
  let R := false :: R
  let b := R.getD 8 false
  let R := R.set 0 (R.getD 0 false ^^ b)
  let R := R.set 4 (R.getD 4 false ^^ b)
  let R := R.set 5 (R.getD 5 false ^^ b)
  let R := R.set 6 (R.getD 6 false ^^ b)
  R.take 8

/-- Algorithm 5: k applications of the step to 10000000. -/
def rcState : Nat → List Bool
  | 0 => [true, false, false, false, false, false, false, false]
  | k + 1 => rcStep (rcState k)

/-- Algorithm 5: rc(t). -/
def rc (t : Nat) : Bool := if t % 255 = 0 then true else (rcState (t % 255)).getD 0 false

/-- Algorithm 6, steps 2-3: bit z of the round constant RC of round ir (RC[2^j - 1] = rc(j + 7 ir), j = 0..6). -/
def RCbit (ir z : Nat) : Bool :=
  match (List.range 7).find? (fun j => z = 2 ^ j - 1) with
  | some j => rc (j + 7 * ir)
  | none => false

/-- Algorithm 6: ι. -/
def iota (ir : Nat) (A : StateArray) : StateArray :=
  fun x y z => if x = 0 ∧ y = 0 then A x y z ^^ RCbit ir z else A x y z

/-- Section 3.3: Rnd(A, ir). -/
def Rnd (A : StateArray) (ir : Nat) : StateArray := iota ir (chi (pi (rho (theta A))))

/-- Rounds ir, ir+1, ..., ir+k-1. -/
def rounds : Nat → Nat → StateArray → StateArray
  | 0, _, A => A
  | k + 1, ir, A => rounds k (ir + 1) (Rnd A ir)

/-- Algorithm 7 for n_r = 24: Keccak-f[1600] (rounds 12 + 2l - n_r = 0 to 23). -/
def keccakF (S : List Bool) : List Bool := toString (rounds 24 0 (toArray S))

/-- Algorithm 9: pad10*1(x, m). -/
def pad101 (x m : Nat) : List Bool := true :: (List.replicate ((-(m : Int) - 2) % x).toNat false ++ [true])

/-- Bitwise XOR of strings of the same length. -/
def xorBits (a b : List Bool) : List Bool := List.zipWith (· ^^ ·) a b

/-- Algorithm 8, step 6: absorb `k` blocks of r bits of P. -/
def absorb (r : Nat) : Nat → List Bool → List Bool → List Bool
  | 0, S, _ => S
  | k + 1, S, P => absorb r k (keccakF (xorBits S (P.take r ++ List.replicate (1600 - r) false))) (P.drop r)

/-- Algorithm 8, steps 7-10: append Trunc_r(S) until d bits are there (at most `fuel + 1` times; d is enough). -/
def squeeze (r d : Nat) : Nat → List Bool → List Bool → List Bool
  | 0, Z, S => (Z ++ S.take r).take d
  | fuel + 1, Z, S =>
    let Z := Z ++ S.take r
    if d ≤ Z.length then Z.take d else squeeze r d fuel Z (keccakF S)

/-- Algorithm 8: SPONGE[Keccak-f[1600], pad10*1, r](N, d). -/
def sponge (r : Nat) (N : List Bool) (d : Nat) : List Bool :=
  let P := N ++ pad101 r N.length
  squeeze r d d [] (absorb r (P.length / r) (List.replicate 1600 false) P)

/-- Section 6.2: SHAKE128(M, d) = KECCAK[256](M || 1111, d). -/
def SHAKE128 (M : List Bool) (d : Nat) : List Bool := sponge (1600 - 256) (M ++ [true, true, true, true]) d
/-- Section 6.2: SHAKE256(M, d) = KECCAK[512](M || 1111, d). -/
def SHAKE256 (M : List Bool) (d : Nat) : List Bool := sponge (1600 - 512) (M ++ [true, true, true, true]) d

/-- Appendix B.1: bit string of a byte string (least significant bit of each byte first). -/
def bits (b : List UInt8) : List Bool := b.flatMap fun x => (List.range 8).map fun i => x.toNat.testBit i

end Fips202
