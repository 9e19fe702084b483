/-
Model of params.h / params.c.
-/
namespace Xmss

/-- Hash family identifiers, params.h:7-9. -/
inductive Func
  | sha2 | shake128 | shake256
deriving DecidableEq, Repr, Inhabited

/-- `xmss_params`, params.h:15-33.
Simplification: `unsigned int` fields are `Nat`; all values that occur are far below 2^32. -/
structure Params where
  func : Func
  n : Nat
  padding_len : Nat
  wots_w : Nat
  wots_log_w : Nat
  wots_len1 : Nat
  wots_len2 : Nat
  wots_len : Nat
  wots_sig_bytes : Nat
  full_height : Nat
  tree_height : Nat
  d : Nat
  index_bytes : Nat
  sig_bytes : Nat
  pk_bytes : Nat
  sk_bytes : Nat
  bds_k : Nat
deriving DecidableEq, Repr, Inhabited

/-- `xmss_str_to_oid`, params.c:7-76; `none` is the return value -1. -/
def xmssStrToOid (s : String) : Option Nat :=
  if s = "XMSS-SHA2_10_256" then some 0x00000001
  else if s = "XMSS-SHA2_16_256" then some 0x00000002
  else if s = "XMSS-SHA2_20_256" then some 0x00000003
  else if s = "XMSS-SHA2_10_512" then some 0x00000004
  else if s = "XMSS-SHA2_16_512" then some 0x00000005
  else if s = "XMSS-SHA2_20_512" then some 0x00000006
  else if s = "XMSS-SHAKE_10_256" then some 0x00000007
  else if s = "XMSS-SHAKE_16_256" then some 0x00000008
  else if s = "XMSS-SHAKE_20_256" then some 0x00000009
  else if s = "XMSS-SHAKE_10_512" then some 0x0000000a
  else if s = "XMSS-SHAKE_16_512" then some 0x0000000b
  else if s = "XMSS-SHAKE_20_512" then some 0x0000000c
  else if s = "XMSS-SHA2_10_192" then some 0x0000000d
  else if s = "XMSS-SHA2_16_192" then some 0x0000000e
  else if s = "XMSS-SHA2_20_192" then some 0x0000000f
  else if s = "XMSS-SHAKE256_10_256" then some 0x00000010
  else if s = "XMSS-SHAKE256_16_256" then some 0x00000011
  else if s = "XMSS-SHAKE256_20_256" then some 0x00000012
  else if s = "XMSS-SHAKE256_10_192" then some 0x00000013
  else if s = "XMSS-SHAKE256_16_192" then some 0x00000014
  else if s = "XMSS-SHAKE256_20_192" then some 0x00000015
  else none

/-- `xmssmt_str_to_oid`, params.c:78-252; `none` is the return value -1. -/
def xmssmtStrToOid (s : String) : Option Nat :=
  if s = "XMSSMT-SHA2_20/2_256" then some 0x00000001
  else if s = "XMSSMT-SHA2_20/4_256" then some 0x00000002
  else if s = "XMSSMT-SHA2_40/2_256" then some 0x00000003
  else if s = "XMSSMT-SHA2_40/4_256" then some 0x00000004
  else if s = "XMSSMT-SHA2_40/8_256" then some 0x00000005
  else if s = "XMSSMT-SHA2_60/3_256" then some 0x00000006
  else if s = "XMSSMT-SHA2_60/6_256" then some 0x00000007
  else if s = "XMSSMT-SHA2_60/12_256" then some 0x00000008
  else if s = "XMSSMT-SHA2_20/2_512" then some 0x00000009
  else if s = "XMSSMT-SHA2_20/4_512" then some 0x0000000a
  else if s = "XMSSMT-SHA2_40/2_512" then some 0x0000000b
  else if s = "XMSSMT-SHA2_40/4_512" then some 0x0000000c
  else if s = "XMSSMT-SHA2_40/8_512" then some 0x0000000d
  else if s = "XMSSMT-SHA2_60/3_512" then some 0x0000000e
  else if s = "XMSSMT-SHA2_60/6_512" then some 0x0000000f
  else if s = "XMSSMT-SHA2_60/12_512" then some 0x00000010
  else if s = "XMSSMT-SHAKE_20/2_256" then some 0x00000011
  else if s = "XMSSMT-SHAKE_20/4_256" then some 0x00000012
  else if s = "XMSSMT-SHAKE_40/2_256" then some 0x00000013
  else if s = "XMSSMT-SHAKE_40/4_256" then some 0x00000014
  else if s = "XMSSMT-SHAKE_40/8_256" then some 0x00000015
  else if s = "XMSSMT-SHAKE_60/3_256" then some 0x00000016
  else if s = "XMSSMT-SHAKE_60/6_256" then some 0x00000017
  else if s = "XMSSMT-SHAKE_60/12_256" then some 0x00000018
  else if s = "XMSSMT-SHAKE_20/2_512" then some 0x00000019
  else if s = "XMSSMT-SHAKE_20/4_512" then some 0x0000001a
  else if s = "XMSSMT-SHAKE_40/2_512" then some 0x0000001b
  else if s = "XMSSMT-SHAKE_40/4_512" then some 0x0000001c
  else if s = "XMSSMT-SHAKE_40/8_512" then some 0x0000001d
  else if s = "XMSSMT-SHAKE_60/3_512" then some 0x0000001e
  else if s = "XMSSMT-SHAKE_60/6_512" then some 0x0000001f
  else if s = "XMSSMT-SHAKE_60/12_512" then some 0x00000020
  else if s = "XMSSMT-SHA2_20/2_192" then some 0x00000021
  else if s = "XMSSMT-SHA2_20/4_192" then some 0x00000022
  else if s = "XMSSMT-SHA2_40/2_192" then some 0x00000023
  else if s = "XMSSMT-SHA2_40/4_192" then some 0x00000024
  else if s = "XMSSMT-SHA2_40/8_192" then some 0x00000025
  else if s = "XMSSMT-SHA2_60/3_192" then some 0x00000026
  else if s = "XMSSMT-SHA2_60/6_192" then some 0x00000027
  else if s = "XMSSMT-SHA2_60/12_192" then some 0x00000028
  else if s = "XMSSMT-SHAKE256_20/2_256" then some 0x00000029
  else if s = "XMSSMT-SHAKE256_20/4_256" then some 0x0000002a
  else if s = "XMSSMT-SHAKE256_40/2_256" then some 0x0000002b
  else if s = "XMSSMT-SHAKE256_40/4_256" then some 0x0000002c
  else if s = "XMSSMT-SHAKE256_40/8_256" then some 0x0000002d
  else if s = "XMSSMT-SHAKE256_60/3_256" then some 0x0000002e
  else if s = "XMSSMT-SHAKE256_60/6_256" then some 0x0000002f
  else if s = "XMSSMT-SHAKE256_60/12_256" then some 0x00000030
  else if s = "XMSSMT-SHAKE256_20/2_192" then some 0x00000031
  else if s = "XMSSMT-SHAKE256_20/4_192" then some 0x00000032
  else if s = "XMSSMT-SHAKE256_40/2_192" then some 0x00000033
  else if s = "XMSSMT-SHAKE256_40/4_192" then some 0x00000034
  else if s = "XMSSMT-SHAKE256_40/8_192" then some 0x00000035
  else if s = "XMSSMT-SHAKE256_60/3_192" then some 0x00000036
  else if s = "XMSSMT-SHAKE256_60/6_192" then some 0x00000037
  else if s = "XMSSMT-SHAKE256_60/12_192" then some 0x00000038
  else none

/-- First switch of `xmss_parse_oid` (hash family), params.c:256-291; `none` is `return -1`. -/
def xmssOidFunc (oid : Nat) : Option Func :=
  if oid ∈ ([0x1, 0x2, 0x3, 0x4, 0x5, 0x6, 0xd, 0xe, 0xf] : List Nat) then some .sha2
  else if oid ∈ ([0x7, 0x8, 0x9] : List Nat) then some .shake128
  else if oid ∈ ([0xa, 0xb, 0xc, 0x10, 0x11, 0x12, 0x13, 0x14, 0x15] : List Nat) then some .shake256
  else none

/-- Second switch of `xmss_parse_oid` (n, padding_len), params.c:292-332. -/
def xmssOidN (oid : Nat) : Option (Nat × Nat) :=
  if oid ∈ ([0xd, 0xe, 0xf, 0x13, 0x14, 0x15] : List Nat) then some (24, 4)
  else if oid ∈ ([0x1, 0x2, 0x3, 0x7, 0x8, 0x9, 0x10, 0x11, 0x12] : List Nat) then some (32, 32)
  else if oid ∈ ([0x4, 0x5, 0x6, 0xa, 0xb, 0xc] : List Nat) then some (64, 64)
  else none

/-- Third switch of `xmss_parse_oid` (full_height), params.c:333-366. -/
def xmssOidHeight (oid : Nat) : Option Nat :=
  if oid ∈ ([0x1, 0x4, 0x7, 0xa, 0xd, 0x10, 0x13] : List Nat) then some 10
  else if oid ∈ ([0x2, 0x5, 0x8, 0xb, 0xe, 0x11, 0x14] : List Nat) then some 16
  else if oid ∈ ([0x3, 0x6, 0x9, 0xc, 0xf, 0x12, 0x15] : List Nat) then some 20
  else none

/-- First switch of `xmssmt_parse_oid` (hash family), params.c:379-449. -/
def xmssmtOidFunc (oid : Nat) : Option Func :=
  if oid ∈ ([0x1, 0x2, 0x3, 0x4, 0x5, 0x6, 0x7, 0x8, 0x9, 0xa, 0xb, 0xc, 0xd, 0xe, 0xf, 0x10, 0x21, 0x22, 0x23, 0x24, 0x25, 0x26, 0x27, 0x28] : List Nat) then some .sha2
  else if oid ∈ ([0x11, 0x12, 0x13, 0x14, 0x15, 0x16, 0x17, 0x18] : List Nat) then some .shake128
  else if oid ∈ ([0x19, 0x1a, 0x1b, 0x1c, 0x1e, 0x1d, 0x1f, 0x20, 0x29, 0x2a, 0x2b, 0x2c, 0x2d, 0x2e, 0x2f, 0x30, 0x31, 0x32, 0x33, 0x34, 0x35, 0x36, 0x37, 0x38] : List Nat) then some .shake256
  else none

/-- Second switch of `xmssmt_parse_oid` (n, padding_len), params.c:450-525. -/
def xmssmtOidN (oid : Nat) : Option (Nat × Nat) :=
  if oid ∈ ([0x21, 0x22, 0x23, 0x24, 0x25, 0x26, 0x27, 0x28, 0x31, 0x32, 0x33, 0x34, 0x35, 0x36, 0x37, 0x38] : List Nat) then some (24, 4)
  else if oid ∈ ([0x1, 0x2, 0x3, 0x4, 0x5, 0x6, 0x7, 0x8, 0x11, 0x12, 0x13, 0x14, 0x15, 0x16, 0x17, 0x18, 0x29, 0x2a, 0x2b, 0x2c, 0x2d, 0x2e, 0x2f, 0x30] : List Nat) then some (32, 32)
  else if oid ∈ ([0x9, 0xa, 0xb, 0xc, 0xd, 0xe, 0xf, 0x10, 0x19, 0x1a, 0x1b, 0x1c, 0x1d, 0x1e, 0x1f, 0x20] : List Nat) then some (64, 64)
  else none

/-- Third switch of `xmssmt_parse_oid` (full_height), params.c:526-612. -/
def xmssmtOidHeight (oid : Nat) : Option Nat :=
  if oid ∈ ([0x1, 0x2, 0x9, 0xa, 0x11, 0x12, 0x19, 0x1a, 0x21, 0x22, 0x29, 0x2a, 0x31, 0x32] : List Nat) then some 20
  else if oid ∈ ([0x3, 0x4, 0x5, 0xb, 0xc, 0xd, 0x13, 0x14, 0x15, 0x1b, 0x1c, 0x1d, 0x23, 0x24, 0x25, 0x2b, 0x2c, 0x2d, 0x33, 0x34, 0x35] : List Nat) then some 40
  else if oid ∈ ([0x6, 0x7, 0x8, 0xe, 0xf, 0x10, 0x16, 0x17, 0x18, 0x1e, 0x1f, 0x20, 0x26, 0x27, 0x28, 0x2e, 0x2f, 0x30, 0x36, 0x37, 0x38] : List Nat) then some 60
  else none

/-- Fourth switch of `xmssmt_parse_oid` (layers), params.c:613-690. -/
def xmssmtOidD (oid : Nat) : Option Nat :=
  if oid ∈ ([0x1, 0x3, 0x9, 0xb, 0x11, 0x13, 0x19, 0x1b, 0x21, 0x23, 0x29, 0x2b, 0x31, 0x33] : List Nat) then some 2
  else if oid ∈ ([0x2, 0x4, 0xa, 0xc, 0x12, 0x14, 0x1a, 0x1c, 0x22, 0x24, 0x2a, 0x2c, 0x32, 0x34] : List Nat) then some 4
  else if oid ∈ ([0x5, 0xd, 0x15, 0x1d, 0x25, 0x2d, 0x35] : List Nat) then some 8
  else if oid ∈ ([0x6, 0xe, 0x16, 0x1e, 0x26, 0x2e, 0x36] : List Nat) then some 3
  else if oid ∈ ([0x7, 0xf, 0x17, 0x1f, 0x27, 0x2f, 0x37] : List Nat) then some 6
  else if oid ∈ ([0x8, 0x10, 0x18, 0x20, 0x28, 0x30, 0x38] : List Nat) then some 12
  else none

/-- `xmss_xmssmt_core_sk_bytes` of the simple implementation, xmss_core.c:93-96. -/
def slowSkBytes (p : Params) : Nat := p.index_bytes + 4 * p.n

/-- Bytes of one serialised `bds_state`: the parenthesised summand of `xmss_xmssmt_core_sk_bytes`,
xmss_core_fast.c:520-529. -/
def bdsStateBytes (p : Params) : Nat :=
  (p.tree_height + 1) * p.n
    + 4
    + (p.tree_height + 1)
    + p.tree_height * p.n
    + (p.tree_height / 2) * p.n
    + (p.tree_height - p.bds_k) * (7 + p.n)
    + (2 ^ p.bds_k - p.bds_k - 1) * p.n
    + 4

/-- `xmss_xmssmt_core_sk_bytes` of the fast implementation, xmss_core_fast.c:517-531. -/
def fastSkBytes (p : Params) : Nat :=
  p.index_bytes + 4 * p.n + (2 * p.d - 1) * bdsStateBytes p + (p.d - 1) * p.wots_sig_bytes

/-- `xmss_xmssmt_initialize_params`, params.c:710-753; `none` is the return value -1.
`skBytes` is the `xmss_xmssmt_core_sk_bytes` of the core that is linked in (simple or fast).
Precondition of the C code: `d ≥ 1` (division). -/
def initializeParams (skBytes : Params → Nat) (func : Func) (n padding_len full_height d wots_w bds_k : Nat) :
    Option Params :=
  let lens : Option (Nat × Nat × Nat) :=
    if wots_w = 4 then some (2, 8 * n / 2, 5)
    else if wots_w = 16 then some (4, 8 * n / 4, 3)
    else if wots_w = 256 then some (8, 8 * n / 8, 2)
    else none
  match lens with
  | none => none
  | some (logw, len1, len2) =>
    let len := len1 + len2
    let wotsSig := len * n
    let indexBytes := if d = 1 then 4 else (full_height + 7) / 8
    let p : Params :=
      { func := func, n := n, padding_len := padding_len, wots_w := wots_w, wots_log_w := logw,
        wots_len1 := len1, wots_len2 := len2, wots_len := len, wots_sig_bytes := wotsSig,
        full_height := full_height, tree_height := full_height / d, d := d, index_bytes := indexBytes,
        sig_bytes := indexBytes + n + d * wotsSig + full_height * n,
        pk_bytes := 2 * n, sk_bytes := 0, bds_k := bds_k }
    some { p with sk_bytes := skBytes p }

/-- `xmss_parse_oid`, params.c:254-375; `none` is the return value -1. -/
def xmssParseOid (skBytes : Params → Nat) (oid : Nat) : Option Params :=
  match xmssOidFunc oid, xmssOidN oid, xmssOidHeight oid with
  | some f, some (n, pad), some h => initializeParams skBytes f n pad h 1 16 0
  | _, _, _ => none

/-- `xmssmt_parse_oid`, params.c:377-698; `none` is the return value -1. -/
def xmssmtParseOid (skBytes : Params → Nat) (oid : Nat) : Option Params :=
  match xmssmtOidFunc oid, xmssmtOidN oid, xmssmtOidHeight oid, xmssmtOidD oid with
  | some f, some (n, pad), some h, some d => initializeParams skBytes f n pad h d 16 0
  | _, _, _, _ => none

end Xmss
