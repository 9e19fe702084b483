import Verif.Spec.Rfc8391
/-
WOTS+ and L-tree of RFC 8391 under an arbitrary hash address.  The RFC states its algorithms 2-8 for an argument ADRS of 32
bytes; within XMSS only the address formats of section 2.5 occur (Spec/Rfc8391.lean), but test/vectors.c calls the functions
with other addresses.  The last three of the eight words of ADRS are those that the algorithms set themselves.
-/
namespace Rfc

/-- The first five words of a 32-byte address. -/
structure AdrsHead where
  w0 : Nat
  w1 : Nat
  w2 : Nat
  w3 : Nat
  w4 : Nat
deriving DecidableEq

/-- The whole address: `chain, hash, keyAndMask` for WOTS+, `height, index, keyAndMask` for L-trees. -/
def AdrsHead.adrs (b : AdrsHead) (x y z : Nat) : Bytes :=
  toByte b.w0 4 ++ toByte b.w1 4 ++ toByte b.w2 4 ++ toByte b.w3 4 ++ toByte b.w4 4 ++ toByte x 4 ++ toByte y 4 ++ toByte z 4

namespace Suite
variable (S : Suite)

/-- Private key element of chain `j` (SP 800-208). -/
def wotsSkAt (skSeed seed : Bytes) (b : AdrsHead) (j : Nat) : Bytes := S.PRFkeygen skSeed (seed ++ b.adrs j 0 0)

/-- Algorithm 4: WOTS_genPK. -/
def wotsPkAt (skSeed seed : Bytes) (b : AdrsHead) : List Bytes :=
  (List.range S.len).map fun j => S.chain seed (b.adrs j) (S.wotsSkAt skSeed seed b j) 0 (S.w - 1)

/-- Algorithm 5: WOTS_sign. -/
def wotsSigAt (skSeed seed M : Bytes) (b : AdrsHead) : List Bytes :=
  (List.range S.len).map fun j => S.chain seed (b.adrs j) (S.wotsSkAt skSeed seed b j) 0 ((S.wotsDigits M).getD j 0)

/-- Algorithm 8: ltree. -/
def ltreeAt (seed : Bytes) (b : AdrsHead) (pk : List Bytes) : Bytes :=
  (ltreeRows (fun height i => S.randHash seed (b.adrs height i)) pk.length 0 pk).getD 0 []

end Suite
end Rfc
