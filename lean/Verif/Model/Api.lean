import Verif.Model.Core
/-
Model of xmss.c: the public API with OIDs in front of the keys, for the simple implementation.
The XMSS and XMSS^MT functions are textual copies of each other that differ only in the parser they call, so they are
instances of one definition with the parser as a parameter.
-/
namespace Xmss

/-- `XMSS_OID_LEN`, params.h:12. -/
def oidLen : Nat := 4

/-- Writing the OID in front of a key: `key[3 - i] = (oid >> 8*i) & 0xFF`, xmss.c:18-24 / 70-73. -/
def oidBytes (oid : Nat) : Bytes :=
  [UInt8.ofNat ((oid >>> 24) &&& 0xff), UInt8.ofNat ((oid >>> 16) &&& 0xff),
   UInt8.ofNat ((oid >>> 8) &&& 0xff), UInt8.ofNat (oid &&& 0xff)]

/-- Reading the OID: `oid |= key[3 - i] << (8*i)`, xmss.c:36-38, 53-55, 85-87, 102-104.  The shift is done in `int`, so
a first byte ≥ 0x80 shifts into the sign bit: undefined behaviour (`none`). -/
def readOid (key : Bytes) : Option Nat := do
  let b ← rd key 0 4
  match b with
  | [b0, b1, b2, b3] =>
    if 128 ≤ b0.toNat then none
    else some ((((0 ||| b3.toNat) ||| (b2.toNat <<< 8)) ||| (b1.toNat <<< 16)) ||| (b0.toNat <<< 24))
  | _ => none

/-- `xmss_keypair` / `xmssmt_keypair` (xmss.c:10-26, 62-75) followed by `xmssmt_core_keypair` (xmss_core.c:168-177).
`seed n` is what `randombytes` delivers for `3*n` bytes.  Result: return value and the two key buffers. -/
def apiKeypair (P : Prims) (parse : Nat → Option Params) (pk sk : Bytes) (oid : Nat) (seed : Nat → Bytes) :
    Option (Int × Bytes × Bytes) :=
  match parse oid with
  | none => some (-1, pk, sk)
  | some p => do
    let pk ← wr pk 0 (oidBytes oid)
    let sk ← wr sk 0 (oidBytes oid)
    let H ← coreHash P p.func p.n
    let r ← coreSeedKeypair H p (pk.drop oidLen) (sk.drop oidLen) (seed p.n)
    some (0, pk.take oidLen ++ r.1, sk.take oidLen ++ r.2)

/-- `xmss_sign` / `xmssmt_sign`, xmss.c:28-43, 77-92; `smlen0` is the previous value of `*smlen`. -/
def apiSign (P : Prims) (parse : Nat → Option Params) (sk sm : Bytes) (smlen0 : Nat) (m : Bytes) : Option SignOut := do
  let oid ← readOid sk
  match parse oid with
  | none => some { ret := -1, sk := sk, sm := sm, smlen := smlen0 }
  | some p =>
    let H ← coreHash P p.func p.n
    let r ← coreSign H p (sk.drop oidLen) sm m
    some { r with sk := sk.take oidLen ++ r.sk }

/-- `xmss_sign_open` / `xmssmt_sign_open`, xmss.c:45-60, 94-109; `mlen0` is the previous value of `*mlen`. -/
def apiOpen (P : Prims) (parse : Nat → Option Params) (m : Bytes) (mlen0 : Nat) (sm : Bytes) (smlen : Nat)
    (pk : Bytes) : Option OpenOut := do
  let oid ← readOid pk
  match parse oid with
  | none => some { ret := -1, m := m, mlen := mlen0 }
  | some p =>
    let H ← coreHash P p.func p.n
    coreSignOpen H p m sm smlen (pk.drop oidLen)

/-- `xmss_parse_oid`, params.c:254-375, as linked with xmss_core.c (`sk_bytes` from xmss_core.c:93-96). -/
def parseXmss : Nat → Option Params := xmssParseOid slowSkBytes
/-- `xmssmt_parse_oid`, params.c:377-698, as linked with xmss_core.c (`sk_bytes` from xmss_core.c:93-96). -/
def parseXmssmt : Nat → Option Params := xmssmtParseOid slowSkBytes

/-- xmss.c:10-26 -/
def xmssKeypair (P : Prims) := apiKeypair P parseXmss
/-- xmss.c:28-43 -/
def xmssSign (P : Prims) := apiSign P parseXmss
/-- xmss.c:45-60 -/
def xmssSignOpen (P : Prims) := apiOpen P parseXmss
/-- xmss.c:62-75 -/
def xmssmtKeypair (P : Prims) := apiKeypair P parseXmssmt
/-- xmss.c:77-92 -/
def xmssmtSign (P : Prims) := apiSign P parseXmssmt
/-- xmss.c:94-109 -/
def xmssmtSignOpen (P : Prims) := apiOpen P parseXmssmt

end Xmss
