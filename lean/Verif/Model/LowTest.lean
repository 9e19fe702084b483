import Verif.Model.LowUi
import Verif.Model.SelfTest
/-
The programs of test/ on the explicit memory of Model/Low.lean, linked with the pointer-level simple or fast
implementation (`Lib` of Model/LowUi.lean).  Their arrays and `malloc`ed buffers start out uninitialised.  What `randombytes`
delivers is a parameter (Model/LowRandom.lean has `randombytes` itself).  Printed text, `free` and failing `malloc` are not modelled.
-/
namespace Xmss.Low

/-- `sm[i] ^= 1`, test/xmss.c:99, 107, 113, 117, 120. -/
def flipBitL (m : Mem) (sm : Ptr) (i : Nat) : Option Mem := do
  let b ← load m (sm + i) 1
  store m (sm + i) [b.headD 0 ^^^ 1]

/-- Variables of test/xmss.c:34-49 that are not arrays (`smlen`, `mlen`, `ret`), and memory. -/
structure TestStateL where
  mem : Mem
  smlen : Nat
  mlen : Nat
  ret : Int

/-- Pointers of test/xmss.c:43-47. -/
structure TestPtrs where
  pk : Ptr
  sk : Ptr
  m : Ptr
  sm : Ptr
  mout : Ptr

/-- The loop under `XMSS_TEST_INVALIDSIG`, test/xmss.c:112-122: `js` are the remaining values of `j`. -/
def invalidLoopL (L : Lib) (q : TestPtrs) : List Nat → TestStateL → Option TestStateL
  | [], s => some s
  | j :: js, s => do
    let m ← flipBitL s.mem q.sm j
    let w ← L.signOpen m q.mout s.mlen q.sm s.smlen q.pk
    let m ← flipBitL w.2.2 q.sm j
    if w.1 = 0 then some { s with mem := m, mlen := w.2.1, ret := -1 }
    else invalidLoopL L q js { s with mem := m, mlen := w.2.1 }

/-- One pass of the loop in test/xmss.c:58-126; `inv` is whether `XMSS_TEST_INVALIDSIG` is defined. -/
def testPassL (L : Lib) (p : Params) (inv : Bool) (q : TestPtrs) (s : TestStateL) : Option TestStateL := do
  let o ← L.sign s.mem q.sk q.sm s.smlen q.m 32
  let ret := if o.2.1 ≠ w32 (p.sig_bytes + 32) then -1 else s.ret
  let v ← L.signOpen o.2.2 q.mout s.mlen q.sm o.2.1 q.pk
  let ret := if v.1 ≠ 0 then -1 else ret
  let ret := if v.2.1 ≠ 32 then -1 else ret
  let a ← load v.2.2 q.m 32
  let b ← load v.2.2 q.mout 32
  let ret := if a ≠ b then -1 else ret
  let m ← flipBitL v.2.2 q.sm (w64 (o.2.1 + 2 ^ 64 - 1))
  let w ← L.signOpen m q.mout v.2.1 q.sm o.2.1 q.pk
  let ret := if w.1 = 0 then -1 else ret
  let m ← flipBitL w.2.2 q.sm (w64 (o.2.1 + 2 ^ 64 - 1))
  let s : TestStateL := { mem := m, smlen := o.2.1, mlen := w.2.1, ret := ret }
  if inv then invalidLoopL L q ((List.range ((o.2.1 - 32 + p.n - 1) / p.n)).map (· * p.n)) s else some s

/-- The loop of test/xmss.c:57-127 with `k` passes left. -/
def testLoopL (L : Lib) (p : Params) (inv : Bool) (q : TestPtrs) : Nat → TestStateL → Option TestStateL
  | 0, s => some s
  | k + 1, s => do
    let s ← testPassL L p inv q s
    testLoopL L p inv q k s

/-- test/xmss.c:32-134: `main` for the parameter set `oid` with `XMSS_SIGNATURES = k`.  `M` are the 32 random bytes of the message,
`rnd` those of key generation; `smlen0` and `mlen0` are the contents of the uninitialised variables.  With parameters that
are not known the program would use uninitialised ones. -/
def xmssTestL (L : Lib) (oid k : Nat) (inv : Bool) (rnd : Params → Bytes) (M : Bytes) (smlen0 mlen0 : Nat) : Option Int := do
  let p ← L.parse oid
  let (pk, m) ← alloc [] (w32 (oidLen + p.pk_bytes))
  let (sk, m) ← alloc m (w32 (oidLen + p.sk_bytes))
  let (msg, m) := malloc m 32
  let (sm, m) := malloc m (w32 (p.sig_bytes + 32))
  let (mout, m) := malloc m (w32 (p.sig_bytes + 32))
  let m ← store m msg M
  let r ← L.keypair m pk sk oid rnd
  let s ← testLoopL L p inv ⟨pk, sk, msg, sm, mout⟩ k { mem := r.2, smlen := smlen0, mlen := mlen0, ret := 0 }
  some s.ret

/-- test/xmss_determinism.c:11-57: `main`, for the parameter set `oid`. -/
def determinismTestL (L : Lib) (oid : Nat) (rnd : Params → Bytes) (M : Bytes) (smlen0 : Nat) : Option Int := do
  let p ← L.parse oid
  let (pk, m) ← alloc [] (w32 (oidLen + p.pk_bytes))
  let (sk, m) ← alloc m (w32 (oidLen + p.sk_bytes))
  let (sk2, m) ← alloc m (w32 (oidLen + p.sk_bytes))
  let (msg, m) ← alloc m 32
  let (sm, m) ← alloc m (w32 (p.sig_bytes + 32))
  let (sm2, m) ← alloc m (w32 (p.sig_bytes + 32))
  let r ← L.keypair m pk sk oid rnd
  let m ← memcpy r.2 sk2 sk (w32 (oidLen + p.sk_bytes))
  let m ← store m msg M
  let o ← L.sign m sk sm smlen0 msg 32
  let o' ← L.sign o.2.2 sk2 sm2 o.2.1 msg 32
  let a ← load o'.2.2 sm (w32 (p.sig_bytes + 32))
  let b ← load o'.2.2 sm2 (w32 (p.sig_bytes + 32))
  some (if a ≠ b then -1 else 0)

/-- The two loops of test/xmss_max_signatures.c:62-95: `k` calls that must return 0, or (`last`) must not.  Behind each of the
latter the whole secret key is printed, that is, read (89, 92-93). -/
def maxLoopL (L : Lib) (p : Params) (q : TestPtrs) (last : Bool) : Nat → TestStateL → Option TestStateL
  | 0, s => some s
  | k + 1, s => do
    let o ← L.sign s.mem q.sk q.sm s.smlen q.m 32
    let bad := if last then o.1 = 0 else o.1 ≠ 0
    let _ ← if last then load o.2.2 q.sk (w32 (oidLen + p.sk_bytes)) else some []
    maxLoopL L p q last k { s with mem := o.2.2, smlen := o.2.1, ret := if bad then -1 else s.ret }

/-- test/xmss_max_signatures.c:35-102: `main` for the parameter set `oid` with `XMSS_SIGNATURES = k`. -/
def maxTestL (L : Lib) (oid k : Nat) (rnd : Params → Bytes) (M : Bytes) (smlen0 : Nat) : Option Int := do
  let p ← L.parse oid
  let (pk, m) ← alloc [] (w32 (oidLen + p.pk_bytes))
  let (sk, m) ← alloc m (w32 (oidLen + p.sk_bytes))
  let (msg, m) := malloc m 32
  let (sm, m) := malloc m (w32 (p.sig_bytes + 32))
  let (mout, m) := malloc m (w32 (p.sig_bytes + 32))
  let m ← store m msg M
  let r ← L.keypair m pk sk oid rnd
  let s ← maxLoopL L p ⟨pk, sk, msg, sm, mout⟩ false k { mem := r.2, smlen := smlen0, mlen := 0, ret := 0 }
  let s ← maxLoopL L p ⟨pk, sk, msg, sm, mout⟩ true 2 s
  some s.ret

/-- test/wots.c:9-43: `main`, with the parameters `p` of OID 1; `seed`, `pubSeed`, `M`, `addr` are the random values. -/
def wotsTestL (P : Prims) (p : Params) (seed pubSeed M : Bytes) (addr : Addr) : Option Int := do
  let (seedp, m) ← alloc [] p.n
  let (psp, m) ← alloc m p.n
  let (pk1, m) ← alloc m p.wots_sig_bytes
  let (pk2, m) ← alloc m p.wots_sig_bytes
  let (sig, m) ← alloc m p.wots_sig_bytes
  let (msg, m) ← alloc m p.n
  let m ← store m seedp seed
  let m ← store m psp pubSeed
  let m ← store m msg M
  let r1 ← wotsPkgen P p m pk1 seedp psp addr
  let r2 ← wotsSign P p r1.1 sig msg seedp psp r1.2
  let r3 ← wotsPkFromSig P p r2.1 pk2 sig msg psp r2.2
  let a ← load r3.1 pk1 p.wots_sig_bytes
  let b ← load r3.1 pk2 p.wots_sig_bytes
  some (if a ≠ b then -1 else 0)

end Xmss.Low
