import Verif.Model.Api
/-
Model of test/vectors.c, the program that prints test vectors.  The result is what it writes to stdout.
-/
namespace Xmss

/-- `printf("%x", v)` for `0 ≤ v < 16`, test/vectors.c:19. -/
def printfX (v : Nat) : String := String.singleton (Nat.digitChar v)

/-- `print_hex`, test/vectors.c:17-21. -/
def printHex : Bytes → String
  | [] => ""
  | b :: bs => printfX (b.toNat / 16) ++ printfX (b.toNat &&& 15) ++ printHex bs

/-- `print_hash`, test/vectors.c:23-27; `buf` are the `len` bytes hashed. -/
def printHash (buf : Bytes) : String := printHex (shake128 10 buf)

/-- The arrays of a call that C leaves uninitialised (test/vectors.c:38-42): for array number `k` of size `n`, its content. -/
abbrev Garbage := Nat → Nat → Bytes

/-- `1 << k` for an `int`, test/vectors.c:51: undefined unless the result fits into an `int`. -/
def shiftInt (k : Nat) : Option Nat := if k < 31 then some (1 <<< k) else none

/-- `vectors_xmss`, test/vectors.c:29-69.  `parse` is `xmss_parse_oid` or `xmssmt_parse_oid` according to `mt`, with the key length
of xmss_core.c (test/vectors is linked with it, Makefile:62); an OID that is not recognised leaves `params` uninitialised. -/
def vectorsXmss (P : Prims) (g : Garbage) (oid : Nat) (mt : Bool) : Option String := do
  let p ← (if mt then xmssmtParseOid slowSkBytes oid else xmssParseOid slowSkBytes oid : Option Params)
  let H ← coreHash P p.func p.n
  let seed := (List.range (3 * p.n)).map UInt8.ofNat
  let kp ← coreSeedKeypair H p (g 0 p.pk_bytes) (g 1 p.sk_bytes) seed
  let idx ← shiftInt (p.full_height - 1)
  let sk ← wr kp.2 0 (ullToBytes p.index_bytes idx)
  let o ← coreSign H p sk (g 2 (p.sig_bytes + 1)) [37]
  let pk ← rd kp.1 0 p.pk_bytes
  let sig ← rd o.sm 0 p.sig_bytes
  some ((if mt then "XMSSMT " else "XMSS ") ++ toString oid ++ " " ++ printHash pk ++ " " ++ printHash sig ++ "\n")

/-- `for (i = 0; i < 8; i++) addr[i] = c*i;`, test/vectors.c:87-90; the product is computed in 32 bits. -/
def vectorAddr (c : UInt32) : Addr := ⟨c * 0, c * 1, c * 2, c * 3, c * 4, c * 5, c * 6, c * 7⟩

/-- `vectors_wots`, test/vectors.c:71-112. -/
def vectorsWots (P : Prims) (oid : Nat) : Option String := do
  let p ← xmssParseOid slowSkBytes oid
  let H ← coreHash P p.func p.n
  let addr := vectorAddr 500000000
  let addr2 := vectorAddr 400000000
  let m := (List.range p.n).map fun i => UInt8.ofNat (3 * i)
  let pubSeed := (List.range p.n).map fun i => UInt8.ofNat (2 * i)
  let skSeed := (List.range p.n).map fun i => UInt8.ofNat i
  let r := wotsPkgen H p skSeed pubSeed addr
  let s := wotsSign H p m skSeed pubSeed r.2
  let leaf := genLeafWots H p skSeed pubSeed s.2 addr2
  some ("WOTS+ " ++ toString oid ++ " " ++ printHash r.1.flatten ++ " " ++ printHash s.1.flatten ++ " " ++ printHash leaf.1 ++ "\n")

/-- `for (oid = first; oid <= last; oid += step) body(oid);`, test/vectors.c:115-123; `fuel` bounds the number of passes. -/
def forOids (body : Nat → Option String) (last step : Nat) : Nat → Nat → Option String
  | 0, _ => some ""
  | fuel + 1, oid =>
    if oid ≤ last then do
      let a ← body oid
      let b ← forOids body last step fuel (oid + step)
      some (a ++ b)
    else some ""

/-- `main`, test/vectors.c:114-124; `g mt oid` are the uninitialised arrays of the call for `oid`. -/
def vectorsMain (P : Prims) (g : Bool → Nat → Garbage) : Option String := do
  let a ← forOids (vectorsWots P) 0x15 3 100 1
  let b ← forOids (fun oid => vectorsXmss P (g true oid) oid true) 56 8 100 2
  let c ← forOids (fun oid => vectorsXmss P (g false oid) oid false) 0x15 3 100 1
  some (a ++ b ++ c)

end Xmss
