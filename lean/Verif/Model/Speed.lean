import Verif.Model.SelfTest
/-
Model of test/speed.c, the benchmark.  `cpucycles` is an oracle: the values it returns are parameters.  Modelled are the figures
for signing and verifying and the exit code; the text around them, the sizes and the timing of key generation (floating point) are not.
-/
namespace Xmss

/-- `for (i = 0; i < tlen-1; i++) t[i] = t[i+1] - t[i];`, test/speed.c:73-75: `k` passes remain, the next is `i`. -/
def diffLoop : Nat → Nat → List UInt64 → Option (List UInt64)
  | 0, _, t => some t
  | k + 1, i, t => do
    let b ← t[i + 1]?
    let a ← t[i]?
    diffLoop k (i + 1) (t.set i (b - a))

/-- `median`, test/speed.c:52-58.  `qsort` with `cmp_llu` (45-50) is modelled as a sorting function. -/
def median (l : List UInt64) : Option UInt64 := do
  let l := l.mergeSort (fun a b => a ≤ b)
  if l.length % 2 = 1 then l[l.length / 2]?
  else if l.length = 0 then none
  else do
    let a ← l[l.length / 2 - 1]?
    let b ← l[l.length / 2]?
    some ((a + b) / 2)

/-- Loop of `average`, test/speed.c:64-66. -/
def sumLoop : List UInt64 → UInt64 → UInt64
  | [], acc => acc
  | x :: xs, acc => sumLoop xs (acc + x)

/-- `average(t, tlen)`, test/speed.c:60-68; division by zero is undefined. -/
def average (t : List UInt64) (tlen : Nat) : Option UInt64 :=
  if t.length < tlen ∨ tlen = 0 then none else some (sumLoop (t.take tlen) 0 / UInt64.ofNat tlen)

/-- `print_results`, test/speed.c:70-79: median and average.  `median` sorts `t` before `average` is called with `tlen - 1`: the
arguments of the first `printf` are evaluated before the second.  For `tlen = 0` the loop runs out of the array. -/
def printResults (t : List UInt64) : Option (UInt64 × UInt64) :=
  if t.length = 0 then none
  else do
    let t ← diffLoop (t.length - 1) 0 t
    let m ← median t
    let t := t.mergeSort (fun a b => a ≤ b)
    let a ← average t (t.length - 1)
    some (m, a)

/-- The signing loop, test/speed.c:131-134 (return values ignored): `sk`, `sm`, `smlen` after `k` calls. -/
def speedSign (sign : SignFun) (m : Bytes) : Nat → Bytes → Bytes → Nat → Option (Bytes × Bytes × Nat)
  | 0, sk, sm, l => some (sk, sm, l)
  | k + 1, sk, sm, l => do
    let o ← sign sk sm l m
    speedSign sign m k o.sk o.sm o.smlen

/-- `ret |= r` for return values 0 and -1 of `open`, test/speed.c:141. -/
def orRet (ret r : Int) : Int := if r = 0 then ret else -1

/-- The verification loop, test/speed.c:139-142. -/
def speedOpen (openf : OpenFun) (sm : Bytes) (smlen : Nat) (pk : Bytes) : Nat → Bytes → Nat → Int → Option Int
  | 0, _, _, ret => some ret
  | k + 1, mout, mlen, ret => do
    let v ← openf mout mlen sm smlen pk
    speedOpen openf sm smlen pk k v.m v.mlen (orRet ret v.ret)

/-- `main`, test/speed.c:81-159, after the variant has been recognised; `k` is `XMSS_SIGNATURES`, `t1` and `t2` are the `k` values of
`cpucycles` in each loop.  Returns the exit code and the figures printed for signing and for verifying. -/
def speedMain (keypair : KeypairFun) (sign : SignFun) (openf : OpenFun) (oid k : Nat) (pk0 sk0 sm0 mout0 : Bytes) (l0 mlen0 : Nat)
    (seed : Nat → Bytes) (m : Bytes) (t1 t2 : List UInt64) : Option (Int × (UInt64 × UInt64) × UInt64 × UInt64) := do
  let kp ← keypair pk0 sk0 oid seed
  let s ← speedSign sign m k kp.2.2 sm0 l0
  let r1 ← printResults t1
  let ret ← speedOpen openf s.2.1 s.2.2 kp.2.1 k mout0 mlen0 0
  let r2 ← printResults t2
  some (ret, r1, r2)

end Xmss
