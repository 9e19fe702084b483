import Verif.Model.Api
import Verif.Proof.Good
/-
Vocabulary for the statements about the public API: the two families of entry points, the documented layout of keys,
and histories of sign calls.  Nothing here is used by the model.
-/
namespace Xmss

/-- The two families of functions in xmss.h: `xmss_*` and `xmssmt_*`. -/
inductive Family | xmss | xmssmt
deriving DecidableEq, Repr

namespace Family
/-- OID to parameters. -/
def parse : Family → Nat → Option Params | xmss => parseXmss | xmssmt => parseXmssmt
/-- `xmss_keypair` or `xmssmt_keypair` -/
def keypair (P : Prims) : Family → Bytes → Bytes → Nat → (Nat → Bytes) → Option (Int × Bytes × Bytes)
  | xmss => xmssKeypair P | xmssmt => xmssmtKeypair P
/-- `xmss_sign` or `xmssmt_sign` -/
def sign (P : Prims) : Family → Bytes → Bytes → Nat → Bytes → Option SignOut
  | xmss => xmssSign P | xmssmt => xmssmtSign P
/-- `xmss_sign_open` or `xmssmt_sign_open` -/
def signOpen (P : Prims) : Family → Bytes → Nat → Bytes → Nat → Bytes → Option OpenOut
  | xmss => xmssSignOpen P | xmssmt => xmssmtSignOpen P
end Family

/-- The four `n`-byte values in a secret key. -/
structure Key where
  skSeed : Bytes
  skPrf : Bytes
  root : Bytes
  pubSeed : Bytes

namespace Key
/-- All four values have `n` bytes. -/
structure Valid (k : Key) (p : Params) : Prop where
  skSeed : k.skSeed.length = p.n
  skPrf : k.skPrf.length = p.n
  root : k.root.length = p.n
  pubSeed : k.pubSeed.length = p.n

/-- Secret key: OID, index, SK_SEED, SK_PRF, root, PUB_SEED. -/
def sk (k : Key) (p : Params) (oid idx : Nat) : Bytes :=
  Rfc.toByte oid 4 ++ (Rfc.toByte idx p.index_bytes ++ k.skSeed ++ k.skPrf ++ k.root ++ k.pubSeed)

/-- Public key: OID, root, PUB_SEED. -/
def pk (k : Key) (oid : Nat) : Bytes := Rfc.toByte oid 4 ++ (k.root ++ k.pubSeed)

/-- The deleted key. -/
def zero (p : Params) : Key :=
  ⟨List.replicate p.n 0, List.replicate p.n 0, List.replicate p.n 0, List.replicate p.n 0⟩

/-- The root is the root of the top tree of the hypertree generated from the two seeds. -/
def Honest (k : Key) (S : Rfc.Suite) : Prop := k.root = S.root k.skSeed k.pubSeed
end Key

/-- One sign call: output buffer, previous `*smlen`, message. -/
structure Call where
  sm : Bytes
  smlen0 : Nat
  msg : Bytes

/-- A history: sign calls on one secret key, each continuing with the key bytes the previous one left. -/
def signAll (P : Prims) (f : Family) : Bytes → List Call → Option (List SignOut)
  | _, [] => some []
  | sk, c :: cs => do
    let o ← f.sign P sk c.sm c.smlen0 c.msg
    let os ← signAll P f o.sk cs
    some (o :: os)

end Xmss
