import Verif.Model.Params
import Verif.Spec.Rfc8391
/-
The calls of the hash function that the algorithms of RFC 8391 make, counted from the text of the algorithms: for every
call the number of bytes hashed.  Nothing here depends on a key.
-/
namespace Calls
open Xmss (Params)

/-- `l`, `k` times. -/
def rep (k : Nat) (l : List Nat) : List Nat := (List.replicate k l).flatten

/-- One PRF call: pad, key, 32 byte. -/
def prf (p : Params) : List Nat := [p.padding_len + p.n + 32]
/-- One call of the generation of a WOTS+ secret: pad, SK_SEED, SEED, address. -/
def gen (p : Params) : List Nat := [p.padding_len + p.n + p.n + 32]
/-- One step of a chain (section 3.1.2): key, mask, F(pad, key, block). -/
def f (p : Params) : List Nat := prf p ++ prf p ++ [p.padding_len + p.n + p.n]
/-- One RAND_HASH (section 4.1.4): key, two masks, H(pad, key, two blocks). -/
def h (p : Params) : List Nat := prf p ++ prf p ++ prf p ++ [p.padding_len + p.n + 2 * p.n]
/-- One H_msg (section 4.1.9): pad, r, root, index, message. -/
def msg (p : Params) (mlen : Nat) : List Nat := [p.padding_len + 3 * p.n + mlen]

/-- One leaf (section 4.1.6): the secrets of `len` chains, the `len` whole chains, the L-tree (`len - 1` inner nodes). -/
def leaf (p : Params) : List Nat :=
  rep p.wots_len (gen p) ++ rep (p.wots_len * (p.wots_w - 1)) (f p) ++ rep (p.wots_len - 1) (h p)

/-- One tree of height `k` (section 4.1.6): left half, right half, the node above. -/
def tree (p : Params) : Nat → List Nat
  | 0 => leaf p
  | k + 1 => tree p k ++ tree p k ++ h p

/-- One key generation: the tree of the top layer. -/
def keygen (p : Params) : List Nat := tree p p.tree_height

/-- One layer of a signature on digest `M`: the WOTS+ secrets, as many steps of the chains as the digits of `M` say, and
the tree for its authentication path. -/
def signLayer (p : Params) (S : Rfc.Suite) (M : Rfc.Bytes) : List Nat :=
  rep p.wots_len (gen p) ++ rep (S.wotsDigits M).sum (f p) ++ tree p p.tree_height

/-- One WOTS+ signature on `M` (section 3.1.5): the secrets, and as many steps of the chains as the digits of `M` say. -/
def wots (p : Params) (S : Rfc.Suite) (M : Rfc.Bytes) : List Nat :=
  rep p.wots_len (gen p) ++ rep (S.wotsDigits M).sum (f p)

/-- One key generation that prepares the first tree of every layer and the signatures of their roots. -/
def keygenAll (p : Params) (S : Rfc.Suite) (skSeed seed : Rfc.Bytes) : List Nat :=
  ((List.range (p.d - 1)).map fun i => tree p p.tree_height ++ wots p S (S.treeRoot skSeed seed i 0)).flatten ++ keygen p

/-- One layer of a verification of digest `M`: the remaining steps of the chains, the L-tree, the path. -/
def verifyLayer (p : Params) (S : Rfc.Suite) (M : Rfc.Bytes) : List Nat :=
  rep ((S.wotsDigits M).map fun l => S.w - 1 - l).sum (f p) ++ rep (p.wots_len - 1) (h p) ++ rep p.tree_height (h p)

/-- One signature whose layers sign the digests `Ms`. -/
def sign (p : Params) (S : Rfc.Suite) (mlen : Nat) (Ms : List Rfc.Bytes) : List Nat :=
  prf p ++ msg p mlen ++ (Ms.map (signLayer p S)).flatten

/-- One verification that checks the digests `Ms` on its layers. -/
def verify (p : Params) (S : Rfc.Suite) (mlen : Nat) (Ms : List Rfc.Bytes) : List Nat :=
  msg p mlen ++ (Ms.map (verifyLayer p S)).flatten

/-- The digests checked on the layers by algorithm 17: that of the message and the roots computed from the signature. -/
def layerDigests (S : Rfc.Suite) (seed : Rfc.Bytes) : Nat → Nat → Nat → Rfc.Bytes → Rfc.Bytes → List Rfc.Bytes
  | 0, _, _, _, _ => []
  | k + 1, layer, idx, M, sig =>
    M :: layerDigests S seed k (layer + 1) (idx / 2 ^ S.hp)
      (S.rootFromSig seed layer (idx / 2 ^ S.hp) (idx % 2 ^ S.hp) (Rfc.blocks S.n S.len sig)
        (Rfc.blocks S.n S.hp (sig.drop (S.len * S.n))) M)
      (sig.drop ((S.len + S.hp) * S.n))

/-- The digests that verification of `sig` on `M` with the public key `(root, seed)` checks: no secret is needed for them. -/
def digests (S : Rfc.Suite) (root seed M sig : Rfc.Bytes) : List Rfc.Bytes :=
  let idx := Rfc.toNat (sig.take S.idxLen)
  let r := (sig.drop S.idxLen).take S.n
  layerDigests S seed S.d 0 idx (S.digest r root idx M) (sig.drop (S.idxLen + S.n))

end Calls
