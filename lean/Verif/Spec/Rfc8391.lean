/-
A functional transcription of RFC 8391 (XMSS and XMSS^MT), written without reference to the C code or to its model.
Section and algorithm numbers refer to RFC 8391; the key derivation PRF_keygen is the one of NIST SP 800-208.

Nothing here mutates an address: every hash call names its full address.
-/
namespace Rfc

abbrev Bytes := List UInt8

/-- Section 2.4: `toByte(x, y)`, the y-byte big-endian representation of x. -/
def toByte (x y : Nat) : Bytes := (List.range y).map fun i => UInt8.ofNat (x / 256 ^ (y - 1 - i))

/-- Value of a byte string read as a big-endian number. -/
def toNat (b : Bytes) : Nat := b.foldl (fun acc x => 256 * acc + x.toNat) 0

/-- The `k` base-w digits of x, most significant first (x below w^k). -/
def digits (w k x : Nat) : List Nat := (List.range k).map fun i => x / w ^ (k - 1 - i) % w

/-- Byte-wise XOR. -/
def xor (a b : Bytes) : Bytes := List.zipWith (· ^^^ ·) a b

/-- Cut a string into its first `k` blocks of `n` bytes. -/
def blocks (n k : Nat) (b : Bytes) : List Bytes := (List.range k).map fun i => (b.drop (i * n)).take n

/-- Parameters: n, w, total height h, number of layers d; `hash` is the underlying hash function with n-byte output and
`pad` the length of the domain separation prefix (n in RFC 8391, 4 for the 192-bit sets of SP 800-208).
`idxLen` is the length of the index field. -/
structure Suite where
  n : Nat
  w : Nat
  h : Nat
  d : Nat
  pad : Nat
  idxLen : Nat
  hash : Bytes → Bytes

namespace Suite
variable (S : Suite)

/-- lg w -/
def lgw : Nat := Nat.log2 S.w
/-- Section 3.1.1: len_1 = ceil(8n / lg(w)) -/
def len1 : Nat := (8 * S.n + S.lgw - 1) / S.lgw
/-- Section 3.1.1: len_2 = floor(lg(len_1 * (w - 1)) / lg(w)) + 1 -/
def len2 : Nat := Nat.log2 (S.len1 * (S.w - 1)) / S.lgw + 1
/-- len = len_1 + len_2 -/
def len : Nat := S.len1 + S.len2
/-- height of one tree -/
def hp : Nat := S.h / S.d

/-! Section 5.1: the keyed hash functions. -/

def F (key m : Bytes) : Bytes := S.hash (toByte 0 S.pad ++ key ++ m)
def H (key m : Bytes) : Bytes := S.hash (toByte 1 S.pad ++ key ++ m)
def Hmsg (key m : Bytes) : Bytes := S.hash (toByte 2 S.pad ++ key ++ m)
def PRF (key m : Bytes) : Bytes := S.hash (toByte 3 S.pad ++ key ++ m)
/-- SP 800-208, section 5 -/
def PRFkeygen (key m : Bytes) : Bytes := S.hash (toByte 4 S.pad ++ key ++ m)

/-! Section 2.5: the three address formats (32 bytes). -/

def otsAdrs (layer tree ots chain hash keyAndMask : Nat) : Bytes :=
  toByte layer 4 ++ toByte tree 8 ++ toByte 0 4 ++ toByte ots 4 ++ toByte chain 4 ++ toByte hash 4
    ++ toByte keyAndMask 4

def ltreeAdrs (layer tree ltree height index keyAndMask : Nat) : Bytes :=
  toByte layer 4 ++ toByte tree 8 ++ toByte 1 4 ++ toByte ltree 4 ++ toByte height 4 ++ toByte index 4
    ++ toByte keyAndMask 4

def treeAdrs (layer tree height index keyAndMask : Nat) : Bytes :=
  toByte layer 4 ++ toByte tree 8 ++ toByte 2 4 ++ toByte 0 4 ++ toByte height 4 ++ toByte index 4
    ++ toByte keyAndMask 4

/-! Section 3.1: WOTS+. -/

/-- One chain step: position `pos` to `pos + 1`, chain addressed by `adrs pos keyAndMask`. -/
def chainStep (seed : Bytes) (adrs : Nat → Nat → Bytes) (pos : Nat) (x : Bytes) : Bytes :=
  S.F (S.PRF seed (adrs pos 0)) (xor x (S.PRF seed (adrs pos 1)))

/-- Algorithm 2: `chain(X, i, s, SEED, ADRS)`. -/
def chain (seed : Bytes) (adrs : Nat → Nat → Bytes) (x : Bytes) (i : Nat) : Nat → Bytes
  | 0 => x
  | s + 1 => S.chainStep seed adrs (i + s) (chain seed adrs x i s)

/-- Private key element of chain `j` (SP 800-208). -/
def wotsSk (skSeed seed : Bytes) (layer tree ots j : Nat) : Bytes :=
  S.PRFkeygen skSeed (seed ++ otsAdrs layer tree ots j 0 0)

/-- Section 3.1.5: message digits followed by checksum digits. -/
def wotsDigits (M : Bytes) : List Nat :=
  let msg := digits S.w S.len1 (toNat M)
  let csum := (msg.map fun x => S.w - 1 - x).sum
  msg ++ digits S.w S.len2 csum

/-- Algorithm 4: WOTS_genPK. -/
def wotsPk (skSeed seed : Bytes) (layer tree ots : Nat) : List Bytes :=
  (List.range S.len).map fun j =>
    S.chain seed (otsAdrs layer tree ots j) (S.wotsSk skSeed seed layer tree ots j) 0 (S.w - 1)

/-- Algorithm 5: WOTS_sign. -/
def wotsSig (skSeed seed M : Bytes) (layer tree ots : Nat) : List Bytes :=
  (List.range S.len).map fun j =>
    S.chain seed (otsAdrs layer tree ots j) (S.wotsSk skSeed seed layer tree ots j) 0 ((S.wotsDigits M).getD j 0)

/-- Algorithm 6: WOTS_pkFromSig. -/
def wotsPkFromSig (seed M : Bytes) (sig : List Bytes) (layer tree ots : Nat) : List Bytes :=
  (List.range S.len).map fun j =>
    let a := (S.wotsDigits M).getD j 0
    S.chain seed (otsAdrs layer tree ots j) (sig.getD j []) a (S.w - 1 - a)

/-! Section 4.1: trees. -/

/-- Algorithm 7: RAND_HASH. -/
def randHash (seed : Bytes) (adrs : Nat → Bytes) (left right : Bytes) : Bytes :=
  S.H (S.PRF seed (adrs 0)) (xor left (S.PRF seed (adrs 1)) ++ xor right (S.PRF seed (adrs 2)))

/-- One row of the L-tree: neighbours are hashed, an odd last node is lifted. -/
def ltreeRow (f : Nat → Bytes → Bytes → Bytes) : Nat → List Bytes → List Bytes
  | i, a :: b :: rest => f i a b :: ltreeRow f (i + 1) rest
  | _, rest => rest

/-- Algorithm 8: ltree, at most `k` rows. -/
def ltreeRows (f : Nat → Nat → Bytes → Bytes → Bytes) : Nat → Nat → List Bytes → List Bytes
  | 0, _, nodes => nodes
  | k + 1, height, nodes =>
    if nodes.length ≤ 1 then nodes else ltreeRows f k (height + 1) (ltreeRow (f height) 0 nodes)

def ltree (seed : Bytes) (layer tree leaf : Nat) (pk : List Bytes) : Bytes :=
  (ltreeRows (fun height i => S.randHash seed (ltreeAdrs layer tree leaf height i)) pk.length 0 pk).getD 0 []

/-- The leaf with number `i` of a tree. -/
def leaf (skSeed seed : Bytes) (layer tree i : Nat) : Bytes :=
  S.ltree seed layer tree i (S.wotsPk skSeed seed layer tree i)

/-- Section 4.1.6: node with number `i` at height `k` of a tree (Algorithm 9 computes it). -/
def node (skSeed seed : Bytes) (layer tree : Nat) : Nat → Nat → Bytes
  | 0, i => S.leaf skSeed seed layer tree i
  | k + 1, i =>
    S.randHash seed (treeAdrs layer tree k i) (node skSeed seed layer tree k (2 * i))
      (node skSeed seed layer tree k (2 * i + 1))

/-- Root of a tree. -/
def treeRoot (skSeed seed : Bytes) (layer tree : Nat) : Bytes := S.node skSeed seed layer tree S.hp 0

/-- Section 4.1.5: the number of the node next to node `i`. -/
def sibling (i : Nat) : Nat := if i % 2 = 0 then i + 1 else i - 1

/-- Section 4.1.5: authentication path of leaf `i`: the siblings of the nodes on the path to the root. -/
def authPath (skSeed seed : Bytes) (layer tree i : Nat) : List Bytes :=
  (List.range S.hp).map fun k => S.node skSeed seed layer tree k (sibling (i / 2 ^ k))

/-- Algorithm 13 (second half): from a node of height `k` and number `i` up along the path. -/
def climb (seed : Bytes) (layer tree : Nat) : Nat → Nat → Bytes → List Bytes → Bytes
  | _, _, x, [] => x
  | k, i, x, a :: rest =>
    climb seed layer tree (k + 1) (i / 2)
      (if i % 2 = 0 then S.randHash seed (treeAdrs layer tree k (i / 2)) x a
       else S.randHash seed (treeAdrs layer tree k (i / 2)) a x) rest

/-- Algorithm 13: XMSS_rootFromSig. -/
def rootFromSig (seed : Bytes) (layer tree i : Nat) (sig auth : List Bytes) (M : Bytes) : Bytes :=
  S.climb seed layer tree 0 i (S.ltree seed layer tree i (S.wotsPkFromSig seed M sig layer tree i)) auth

/-! Section 4.2: XMSS^MT (XMSS is the case d = 1). -/

/-- Algorithm 16, the layers `layer .. layer + k - 1`: WOTS signature and authentication path of each layer. -/
def signLayers (skSeed seed : Bytes) : Nat → Nat → Nat → Bytes → Bytes
  | 0, _, _, _ => []
  | k + 1, layer, idx, M =>
    let leafNo := idx % 2 ^ S.hp
    let tree := idx / 2 ^ S.hp
    (S.wotsSig skSeed seed M layer tree leafNo).flatten ++ (S.authPath skSeed seed layer tree leafNo).flatten
      ++ signLayers skSeed seed k (layer + 1) tree (S.treeRoot skSeed seed layer tree)

/-- Public root: root of the single tree on the top layer. -/
def root (skSeed seed : Bytes) : Bytes := S.treeRoot skSeed seed (S.d - 1) 0

/-- The message digest that is signed on layer 0. -/
def digest (r root : Bytes) (idx : Nat) (M : Bytes) : Bytes := S.Hmsg (r ++ root ++ toByte idx S.n) M

/-- Algorithm 16: the signature with index `idx` on message `M`. -/
def sign (skSeed skPrf root seed : Bytes) (idx : Nat) (M : Bytes) : Bytes :=
  let r := S.PRF skPrf (toByte idx 32)
  toByte idx S.idxLen ++ r ++ S.signLayers skSeed seed S.d 0 idx (S.digest r root idx M)

/-- Length of a signature. -/
def sigLen : Nat := S.idxLen + S.n + S.d * ((S.len + S.hp) * S.n)

/-- Algorithm 17, the loop over the layers: the root computed from `sig`. -/
def verifyLayers (seed : Bytes) : Nat → Nat → Nat → Bytes → Bytes → Bytes
  | 0, _, _, M, _ => M
  | k + 1, layer, idx, M, sig =>
    let leafNo := idx % 2 ^ S.hp
    let tree := idx / 2 ^ S.hp
    let M' := S.rootFromSig seed layer tree leafNo (blocks S.n S.len sig)
      (blocks S.n S.hp (sig.drop (S.len * S.n))) M
    verifyLayers seed k (layer + 1) tree M' (sig.drop ((S.len + S.hp) * S.n))

/-- Algorithm 17: the root that the verifier computes from message and signature. -/
def verifyRoot (root seed M sig : Bytes) : Bytes :=
  let idx := toNat (sig.take S.idxLen)
  let r := (sig.drop S.idxLen).take S.n
  S.verifyLayers seed S.d 0 idx (S.digest r root idx M) (sig.drop (S.idxLen + S.n))

/-- Algorithm 17: accept iff the computed root is the one in the public key. -/
def verify (root seed M sig : Bytes) : Prop := S.verifyRoot root seed M sig = root

end Suite
end Rfc
