import Verif.Model.Low
import Verif.Model.Vectors
import Verif.Model.Speed
import Verif.Model.LowUi
/-
Model of test/vectors.c and test/speed.c on the explicit memory of Model/Low.lean: their arrays start out uninitialised, and each
function is called with pointers to them.  The result of test/vectors is what it writes to stdout.
-/
namespace Xmss.Low

/-- `print_hash`, test/vectors.c:23-27: the text and memory afterwards.  `len` is an `int` that is not negative. -/
def printHashL (m0 : Mem) (buf : Ptr) (len : Nat) : Option (String × Mem) := do
  let (tmp, m) ← alloc m0 10
  let m ← shake128 m tmp 10 buf len
  let d ← load m tmp 10
  some (printHex d, release m0 m)

/-- `for (i = 0; i < n; i++) seed[i] = i;`, test/vectors.c:45-47: `k` passes remain, the next is `i`.  An `unsigned` is stored into an
`unsigned char`. -/
def seedLoop (seed : Ptr) : Nat → Nat → Mem → Option Mem
  | 0, _, m => some m
  | k + 1, i, m => do
    let m ← store m (seed + i) [UInt8.ofNat i]
    seedLoop seed k (i + 1) m

/-- `vectors_xmss`, test/vectors.c:29-69. -/
def vectorsXmssL (P : Prims) (oid : Nat) (mt : Bool) : Option String := do
  let p ← (if mt then xmssmtParseOid slowSkBytes oid else xmssParseOid slowSkBytes oid : Option Params)
  let (seed, m) ← alloc [] (w32 (p.n * 3))
  let (pk, m) ← alloc m p.pk_bytes
  let (sk, m) ← alloc m p.sk_bytes
  let (msg, m) ← alloc m 1
  let m ← store m msg [37]
  let (sm, m) ← alloc m (w32 (p.sig_bytes + 1))
  let m ← seedLoop seed (w32 (3 * p.n)) 0 m
  let m ← coreSeedKeypair P p m pk sk seed
  let idx ← shiftInt (usub p.full_height 1)
  let m ← ullToBytes m sk p.index_bytes idx
  let r ← coreSign P p m sk sm msg 1
  let t1 ← printHashL r.2.2 pk p.pk_bytes
  let t2 ← printHashL t1.2 sm p.sig_bytes
  some ((if mt then "XMSSMT " else "XMSS ") ++ toString oid ++ " " ++ t1.1 ++ " " ++ t2.1 ++ "\n")

/-- The loop that fills `m`, `pub_seed` and `sk_seed`, test/vectors.c:92-96; the products are small. -/
def wotsFill (msg ps ss : Ptr) : Nat → Nat → Mem → Option Mem
  | 0, _, m => some m
  | k + 1, i, m => do
    let m ← store m (msg + i) [UInt8.ofNat (3 * i)]
    let m ← store m (ps + i) [UInt8.ofNat (2 * i)]
    let m ← store m (ss + i) [UInt8.ofNat i]
    wotsFill msg ps ss k (i + 1) m

/-- `vectors_wots`, test/vectors.c:71-112.  The two addresses are values (as in Model/Low.lean); their loop is `vectorAddr`. -/
def vectorsWotsL (P : Prims) (oid : Nat) : Option String := do
  let p ← xmssParseOid slowSkBytes oid
  let (ss, m) ← alloc [] p.n
  let (ps, m) ← alloc m p.n
  let (pk, m) ← alloc m p.wots_sig_bytes
  let (leaf, m) ← alloc m p.n
  let (sig, m) ← alloc m p.wots_sig_bytes
  let (msg, m) ← alloc m p.n
  let m ← wotsFill msg ps ss p.n 0 m
  let r ← wotsPkgen P p m pk ss ps (vectorAddr 500000000)
  let s ← wotsSign P p r.1 sig msg ss ps r.2
  let t1 ← printHashL s.1 pk p.wots_sig_bytes
  let t2 ← printHashL t1.2 sig p.wots_sig_bytes
  let l ← genLeafWots P p t2.2 leaf ss ps s.2 (vectorAddr 400000000)
  let t3 ← printHashL l.1 leaf p.n
  some ("WOTS+ " ++ toString oid ++ " " ++ t1.1 ++ " " ++ t2.1 ++ " " ++ t3.1 ++ "\n")

/-- `main`, test/vectors.c:114-124. -/
def vectorsMainL (P : Prims) : Option String := do
  let a ← forOids (vectorsWotsL P) 0x15 3 100 1
  let b ← forOids (fun oid => vectorsXmssL P oid true) 56 8 100 2
  let c ← forOids (fun oid => vectorsXmssL P oid false) 0x15 3 100 1
  some (a ++ b ++ c)

/-- The signing loop of test/speed.c:131-134 (return values ignored): memory and `smlen` after `k` calls. -/
def speedSignL (L : Lib) (sk sm msg : Ptr) : Nat → Mem → Nat → Option (Mem × Nat)
  | 0, m, l => some (m, l)
  | k + 1, m, l => do
    let o ← L.sign m sk sm l msg 32
    speedSignL L sk sm msg k o.2.2 o.2.1

/-- The verification loop of test/speed.c:139-142. -/
def speedOpenL (L : Lib) (mout sm pk : Ptr) (smlen : Nat) : Nat → Mem → Nat → Int → Option Int
  | 0, _, _, ret => some ret
  | k + 1, m, mlen, ret => do
    let v ← L.signOpen m mout mlen sm smlen pk
    speedOpenL L mout sm pk smlen k v.2.2 v.2.1 (orRet ret v.1)

/-- test/speed.c:81-159: `main` for the parameter set `oid` with `XMSS_SIGNATURES = k`.  The array `t` and the figures are as in
Model/Speed.lean; the timing of key generation is not modelled. -/
def speedL (L : Lib) (oid k : Nat) (rnd : Params → Bytes) (M : Bytes) (smlen0 mlen0 : Nat) (t1 t2 : List UInt64) :
    Option (Int × (UInt64 × UInt64) × UInt64 × UInt64) := do
  let p ← L.parse oid
  let (pk, m) ← alloc [] (w32 (oidLen + p.pk_bytes))
  let (sk, m) ← alloc m (w32 (oidLen + p.sk_bytes))
  let (msg, m) := malloc m 32
  let (sm, m) := malloc m (w32 (p.sig_bytes + 32))
  let (mout, m) := malloc m (w32 (p.sig_bytes + 32))
  let m ← store m msg M
  let r ← L.keypair m pk sk oid rnd
  let s ← speedSignL L sk sm msg k r.2 smlen0
  let r1 ← printResults t1
  let ret ← speedOpenL L mout sm pk s.2 k s.1 mlen0 0
  let r2 ← printResults t2
  some (ret, r1, r2)

end Xmss.Low
