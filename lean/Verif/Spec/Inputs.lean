import Verif.Spec.Rfc8391
/-
The strings a signer hashes according to RFC 8391, for one key: every application of F or H belongs to a place in the hypertree, and
what is hashed there is a function of the place (and of the key) only.
-/
namespace Inputs
open Rfc (Bytes toByte)

/-- Where F or H is applied: step `pos` of a chain, pair number `index` in row `height` of an L-tree, or the pair below the node
number `index` of height `height + 1` of a tree. -/
inductive Spot
  | chain (layer tree leaf chain pos : Nat)
  | ltree (layer tree leaf height index : Nat)
  | node (layer tree height index : Nat)
deriving DecidableEq

/-- Section 2.5: the addresses of a place; `km` selects key (0) and masks (1, 2). -/
def Spot.adrs : Spot → (km : Nat) → Bytes
  | .chain layer tree leaf c pos, km => Rfc.Suite.otsAdrs layer tree leaf c pos km
  | .ltree layer tree leaf height index, km => Rfc.Suite.ltreeAdrs layer tree leaf height index km
  | .node layer tree height index, km => Rfc.Suite.treeAdrs layer tree height index km

/-- 0 for F, 1 for H (section 5.1) -/
def Spot.role : Spot → Nat
  | .chain .. => 0
  | _ => 1

/-- F needs a key and one mask, H a key and two. -/
def Spot.masks : Spot → Nat
  | .chain .. => 1
  | _ => 2

variable (S : Rfc.Suite) (skSeed seed : Bytes)

/-- Row `height` of the L-tree over the WOTS+ public key of a leaf (algorithm 8). -/
def row (layer tree leaf : Nat) : (height : Nat) → List Bytes
  | 0 => S.wotsPk skSeed seed layer tree leaf
  | h + 1 => Rfc.Suite.ltreeRow (fun i => S.randHash seed (Rfc.Suite.ltreeAdrs layer tree leaf h i)) 0 (row layer tree leaf h)

/-- The place exists. -/
def Spot.In : Spot → Prop
  | .chain layer tree leaf c pos => layer < S.d ∧ tree < 2 ^ (S.h - (layer + 1) * S.hp) ∧ leaf < 2 ^ S.hp ∧ c < S.len ∧
      pos < S.w - 1
  | .ltree layer tree leaf height index => layer < S.d ∧ tree < 2 ^ (S.h - (layer + 1) * S.hp) ∧ leaf < 2 ^ S.hp ∧
      2 * index + 1 < (row S skSeed seed layer tree leaf height).length
  | .node layer tree height index => layer < S.d ∧ tree < 2 ^ (S.h - (layer + 1) * S.hp) ∧ height < S.hp ∧
      index < 2 ^ (S.hp - 1 - height)

/-- What is hashed at a place, before masking: a value of a chain, or two nodes. -/
def Spot.values : Spot → List Bytes
  | .chain layer tree leaf c pos =>
    [S.chain seed (Rfc.Suite.otsAdrs layer tree leaf c) (S.wotsSk skSeed seed layer tree leaf c) 0 pos]
  | .ltree layer tree leaf height index =>
    [(row S skSeed seed layer tree leaf height).getD (2 * index) [], (row S skSeed seed layer tree leaf height).getD (2 * index + 1) []]
  | .node layer tree height index =>
    [S.node skSeed seed layer tree height (2 * index), S.node skSeed seed layer tree height (2 * index + 1)]

/-- The whole string hashed at a place (algorithms 2 and 7): the prefix of F or H, the key of the place, the values under the masks
of the place. -/
def Spot.input (pl : Spot) : Bytes :=
  toByte pl.role S.pad ++ S.PRF seed (pl.adrs 0) ++
    ((pl.values S skSeed seed).mapIdx fun i v => Rfc.xor v (S.PRF seed (pl.adrs (i + 1)))).flatten

/-- The strings hashed for the trees of a key. -/
inductive TreeCall : Bytes → Prop
  /-- a secret of a WOTS+ key (SP 800-208, PRF_keygen) -/
  | secret (layer tree leaf chain : Nat) (h : (Spot.chain layer tree leaf chain 0).In S skSeed seed) :
      TreeCall (toByte 4 S.pad ++ skSeed ++ (seed ++ Rfc.Suite.otsAdrs layer tree leaf chain 0 0))
  /-- a key or a mask of a place -/
  | randomizer (pl : Spot) (h : pl.In S skSeed seed) (km : Nat) (hk : km ≤ pl.masks) : TreeCall (toByte 3 S.pad ++ seed ++ pl.adrs km)
  /-- F or H -/
  | hash (pl : Spot) (h : pl.In S skSeed seed) : TreeCall (pl.input S skSeed seed)

/-- The strings hashed for the signature with number `idx` on `M`: the randomizer, the message, and those for the trees. -/
inductive SignCall (skPrf root : Bytes) (idx : Nat) (M : Bytes) : Bytes → Prop
  | randomizer : SignCall skPrf root idx M (toByte 3 S.pad ++ skPrf ++ toByte idx 32)
  | message : SignCall skPrf root idx M (toByte 2 S.pad ++ (S.PRF skPrf (toByte idx 32) ++ root ++ toByte idx S.n) ++ M)
  | tree {x : Bytes} (h : TreeCall S skSeed seed x) : SignCall skPrf root idx M x

end Inputs
