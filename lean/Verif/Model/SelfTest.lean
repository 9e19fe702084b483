import Verif.Model.Wots
import Verif.Model.Api
import Verif.Model.FastCore
/-
Model of the programs in test/: what `make test` runs.  Printed text is not modelled; the result is the exit code of main.
Uninitialised buffers and the output of `randombytes` are parameters.  `malloc` is assumed to succeed.
-/
namespace Xmss

/-- test/wots.c:9-43: `main`, with the parameters `p` of OID 1; `H` is `core_hash` for them.  `seed`, `pubSeed`, `m` and `addr` are
the random values.  The three calls work on one `addr` array, which each of them changes. -/
def wotsTest (H : Bytes → Bytes) (p : Params) (seed pubSeed m : Bytes) (addr : Addr) : Int :=
  let r1 := wotsPkgen H p seed pubSeed addr
  let r2 := wotsSign H p m seed pubSeed r1.2
  let r3 := wotsPkFromSig H p r2.1 m pubSeed r2.2
  if r1.1.flatten ≠ r3.1.flatten then -1 else 0

/-- A sign function of the API (xmss.h:19, xmss.h:47): secret key, signed message buffer, previous `*smlen`, message. -/
abbrev SignFun := Bytes → Bytes → Nat → Bytes → Option SignOut
/-- An open function of the API (xmss.h:30, xmss.h:58): message buffer, previous `*mlen`, signed message, its length, public key. -/
abbrev OpenFun := Bytes → Nat → Bytes → Nat → Bytes → Option OpenOut
/-- A keypair function of the API (xmss.h:11, xmss.h:39): buffers for the two keys, OID, random bytes. -/
abbrev KeypairFun := Bytes → Bytes → Nat → (Nat → Bytes) → Option (Int × Bytes × Bytes)

/-- test/xmss_determinism.c:11-57: `main`.  `pk0`, `sk0`, `sm0`, `sm0'` are the uninitialised arrays, `l0` the uninitialised
`smlen`. -/
def determinismTest (keypair : KeypairFun) (sign : SignFun) (p : Params) (oid : Nat) (pk0 sk0 sm0 sm0' : Bytes) (l0 : Nat)
    (seed : Nat → Bytes) (m : Bytes) : Option Int := do
  let kp ← keypair pk0 sk0 oid seed
  let o ← sign kp.2.2 sm0 l0 m
  let o' ← sign kp.2.2 sm0' o.smlen m
  let a ← rd o.sm 0 (p.sig_bytes + 32)
  let b ← rd o'.sm 0 (p.sig_bytes + 32)
  some (if a ≠ b then -1 else 0)

/-- `buf[i] ^= 1`, test/xmss.c:99, 107, 114; outside the buffer undefined. -/
def flipBit (buf : Bytes) (i : Nat) : Option Bytes :=
  if i < buf.length then some (buf.modify i (· ^^^ 1)) else none

/-- Variables of test/xmss.c:34-49: `sk`, `sm`, `smlen`, `mout`, `mlen`, `ret`. -/
structure TestState where
  sk : Bytes
  sm : Bytes
  smlen : Nat
  mout : Bytes
  mlen : Nat
  ret : Int

/-- The loop under `XMSS_TEST_INVALIDSIG`, test/xmss.c:109-122: `js` are the remaining values of `j`. -/
def invalidLoop (openf : OpenFun) (pk : Bytes) (smlen : Nat) : List Nat → TestState → Option TestState
  | [], s => some s
  | j :: js, s => do
    let sm ← flipBit s.sm j
    let w ← openf s.mout s.mlen sm smlen pk
    let sm ← flipBit sm j
    if w.ret = 0 then some { s with sm := sm, mout := w.m, mlen := w.mlen, ret := -1 }
    else invalidLoop openf pk smlen js { s with sm := sm, mout := w.m, mlen := w.mlen }

/-- One pass of the loop in test/xmss.c:58-126; `inv` is whether `XMSS_TEST_INVALIDSIG` is defined (the Makefile does not). -/
def testPass (sign : SignFun) (openf : OpenFun) (p : Params) (inv : Bool) (pk m : Bytes) (s : TestState) :
    Option TestState := do
  let o ← sign s.sk s.sm s.smlen m
  let ret := if o.smlen ≠ p.sig_bytes + 32 then -1 else s.ret
  let v ← openf s.mout s.mlen o.sm o.smlen pk
  let ret := if v.ret ≠ 0 then -1 else ret
  let ret := if v.mlen ≠ 32 then -1 else ret
  let mo ← rd v.m 0 32
  let ret := if m ≠ mo then -1 else ret
  if o.smlen = 0 then none
  else
    let sm ← flipBit o.sm (o.smlen - 1)
    let w ← openf v.m v.mlen sm o.smlen pk
    let ret := if w.ret = 0 then -1 else ret
    let sm ← flipBit sm (o.smlen - 1)
    let s : TestState := { sk := o.sk, sm := sm, smlen := o.smlen, mout := w.m, mlen := w.mlen, ret := ret }
    if inv then invalidLoop openf pk o.smlen ((List.range ((o.smlen - 32 + p.n - 1) / p.n)).map (· * p.n)) s
    else some s

/-- The loop of test/xmss.c:57-127 with `k` passes left. -/
def testLoop (sign : SignFun) (openf : OpenFun) (p : Params) (inv : Bool) (pk m : Bytes) : Nat → TestState → Option TestState
  | 0, s => some s
  | k + 1, s => do
    let s ← testPass sign openf p inv pk m s
    testLoop sign openf p inv pk m k s

/-- test/xmss.c:32-134: `main` with `XMSS_SIGNATURES = k`.  `s0` are the uninitialised buffers (its `sk` is the uninitialised secret
key, its `ret` is not used). -/
def xmssTest (keypair : KeypairFun) (sign : SignFun) (openf : OpenFun) (p : Params) (oid k : Nat) (inv : Bool) (pk0 : Bytes)
    (s0 : TestState) (seed : Nat → Bytes) (m : Bytes) : Option Int := do
  let kp ← keypair pk0 s0.sk oid seed
  let s ← testLoop sign openf p inv kp.2.1 m k { s0 with sk := kp.2.2, ret := 0 }
  some s.ret

/-- The two loops of test/xmss_max_signatures.c:62-95: `k` calls that must return 0, or (`last`) must not. -/
def maxLoop (sign : SignFun) (m : Bytes) (last : Bool) : Nat → TestState → Option TestState
  | 0, s => some s
  | k + 1, s => do
    let o ← sign s.sk s.sm s.smlen m
    let bad := if last then o.ret = 0 else o.ret ≠ 0
    maxLoop sign m last k { s with sk := o.sk, sm := o.sm, smlen := o.smlen, ret := if bad then -1 else s.ret }

/-- test/xmss_max_signatures.c:35-102: `main` with `XMSS_SIGNATURES = k`.  The index that it prints is not modelled. -/
def maxTest (keypair : KeypairFun) (sign : SignFun) (oid k : Nat) (pk0 : Bytes) (s0 : TestState) (seed : Nat → Bytes) (m : Bytes) :
    Option Int := do
  let kp ← keypair pk0 s0.sk oid seed
  let s ← maxLoop sign m false k { s0 with sk := kp.2.2, ret := 0 }
  let s ← maxLoop sign m true 2 s
  some s.ret

/-- A sign function of the fast implementation (xmss_core_fast.c:584, 785), without the leaf counter of the model. -/
def fastSign (sign : Bytes → Bytes → Nat → Bytes → Option FastOut) : SignFun := fun sk sm l m => (sign sk sm l m).map (·.toSignOut)

/-- The names in test/oid.c:31-51. -/
def oidTestXmss : List String :=
  ["XMSS-SHA2_10_256", "XMSS-SHA2_16_256", "XMSS-SHA2_20_256", "XMSS-SHA2_10_512", "XMSS-SHA2_16_512",
   "XMSS-SHA2_20_512", "XMSS-SHAKE_10_256", "XMSS-SHAKE_16_256", "XMSS-SHAKE_20_256", "XMSS-SHAKE_10_512",
   "XMSS-SHAKE_16_512", "XMSS-SHAKE_20_512", "XMSS-SHA2_10_192", "XMSS-SHA2_16_192", "XMSS-SHA2_20_192",
   "XMSS-SHAKE256_10_256", "XMSS-SHAKE256_16_256", "XMSS-SHAKE256_20_256", "XMSS-SHAKE256_10_192",
   "XMSS-SHAKE256_16_192", "XMSS-SHAKE256_20_192"]

/-- The names in test/oid.c:55-110. -/
def oidTestXmssmt : List String :=
  ["XMSSMT-SHA2_20/2_256", "XMSSMT-SHA2_20/4_256", "XMSSMT-SHA2_40/2_256", "XMSSMT-SHA2_40/4_256",
   "XMSSMT-SHA2_40/8_256", "XMSSMT-SHA2_60/3_256", "XMSSMT-SHA2_60/6_256", "XMSSMT-SHA2_60/12_256",
   "XMSSMT-SHA2_20/2_512", "XMSSMT-SHA2_20/4_512", "XMSSMT-SHA2_40/2_512", "XMSSMT-SHA2_40/4_512",
   "XMSSMT-SHA2_40/8_512", "XMSSMT-SHA2_60/3_512", "XMSSMT-SHA2_60/6_512", "XMSSMT-SHA2_60/12_512",
   "XMSSMT-SHAKE_20/2_256", "XMSSMT-SHAKE_20/4_256", "XMSSMT-SHAKE_40/2_256", "XMSSMT-SHAKE_40/4_256",
   "XMSSMT-SHAKE_40/8_256", "XMSSMT-SHAKE_60/3_256", "XMSSMT-SHAKE_60/6_256", "XMSSMT-SHAKE_60/12_256",
   "XMSSMT-SHAKE_20/2_512", "XMSSMT-SHAKE_20/4_512", "XMSSMT-SHAKE_40/2_512", "XMSSMT-SHAKE_40/4_512",
   "XMSSMT-SHAKE_40/8_512", "XMSSMT-SHAKE_60/3_512", "XMSSMT-SHAKE_60/6_512", "XMSSMT-SHAKE_60/12_512",
   "XMSSMT-SHA2_20/2_192", "XMSSMT-SHA2_20/4_192", "XMSSMT-SHA2_40/2_192", "XMSSMT-SHA2_40/4_192",
   "XMSSMT-SHA2_40/8_192", "XMSSMT-SHA2_60/3_192", "XMSSMT-SHA2_60/6_192", "XMSSMT-SHA2_60/12_192",
   "XMSSMT-SHAKE256_20/2_256", "XMSSMT-SHAKE256_20/4_256", "XMSSMT-SHAKE256_40/2_256", "XMSSMT-SHAKE256_40/4_256",
   "XMSSMT-SHAKE256_40/8_256", "XMSSMT-SHAKE256_60/3_256", "XMSSMT-SHAKE256_60/6_256", "XMSSMT-SHAKE256_60/12_256",
   "XMSSMT-SHAKE256_20/2_192", "XMSSMT-SHAKE256_20/4_192", "XMSSMT-SHAKE256_40/2_192", "XMSSMT-SHAKE256_40/4_192",
   "XMSSMT-SHAKE256_40/8_192", "XMSSMT-SHAKE256_60/3_192", "XMSSMT-SHAKE256_60/6_192", "XMSSMT-SHAKE256_60/12_192"]

/-- test/oid.c:25-114: `main`, linked with xmss_core.c.  Each name must be recognised and its OID parsed. -/
def oidTest : Int :=
  if (oidTestXmss.all fun s => match xmssStrToOid s with | none => false | some oid => (parseXmss oid).isSome) &&
      (oidTestXmssmt.all fun s => match xmssmtStrToOid s with | none => false | some oid => (parseXmssmt oid).isSome) then 0 else -1

end Xmss
