import Verif.Spec.Keys
import Verif.Model.FastCore
/-
Vocabulary for the statements about the public API linked with the fast implementation.  Nothing here is used by the
model.
-/
namespace Xmss

namespace Family
/-- OID to parameters, fast implementation. -/
def parseFast : Family → Nat → Option Params | xmss => parseXmssFast | xmssmt => parseXmssmtFast
/-- `xmss_keypair` or `xmssmt_keypair`, fast implementation -/
def keypairFast (P : Prims) : Family → Bytes → Bytes → Nat → (Nat → Bytes) → Option (Int × Bytes × Bytes)
  | xmss => xmssKeypairFast P | xmssmt => xmssmtKeypairFast P
/-- `xmss_sign` or `xmssmt_sign`, fast implementation -/
def signFast (P : Prims) : Family → Bytes → Bytes → Nat → Bytes → Option FastOut
  | xmss => xmssSignFast P | xmssmt => xmssmtSignFast P
/-- `xmss_sign_open` or `xmssmt_sign_open` (xmss.c:45-60, 94-109) in the program linked with the fast implementation -/
def signOpenFast (P : Prims) (f : Family) := apiOpen P f.parseFast
end Family

/-- A history of the fast implementation: sign calls on one secret key, each continuing with the key bytes the previous
one left. -/
def signAllFast (P : Prims) (f : Family) : Bytes → List Call → Option (List FastOut)
  | _, [] => some []
  | sk, c :: cs => do
    let o ← f.signFast P sk c.sm c.smlen0 c.msg
    let os ← signAllFast P f o.sk cs
    some (o :: os)

/-- A history of `xmss_core_sign` of the fast implementation, for an arbitrary parameter structure. -/
def coreSignAllFast (H : Bytes → Bytes) (p : Params) : Bytes → List Call → Option (List FastOut)
  | _, [] => some []
  | sk, c :: cs => do
    let o ← fastXmssSign H p sk c.sm c.smlen0 c.msg
    let os ← coreSignAllFast H p o.sk cs
    some (o :: os)

/-- What the call with the last index writes in front of the message: the key has been deleted before, so everything
is computed from zero bytes; all authentication paths and the WOTS signatures of the upper layers are zero. -/
def fastLastSig (p : Params) (H : Bytes → Bytes) (m : Bytes) : Bytes :=
  let S := suiteOf p H
  let z := Key.zero p
  let idx := 2 ^ p.full_height - 1
  let R := S.PRF z.skPrf (Rfc.toByte idx 32)
  Rfc.toByte idx p.index_bytes ++ R ++
    (S.wotsSig z.skSeed z.pubSeed (S.digest R z.root idx m) 0 (idx / 2 ^ p.tree_height) (idx % 2 ^ p.tree_height)).flatten ++
    List.replicate (p.tree_height * p.n + (p.d - 1) * (p.wots_sig_bytes + p.tree_height * p.n)) 0

end Xmss
