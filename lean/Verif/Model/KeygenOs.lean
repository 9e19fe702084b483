import Verif.Model.Api
import Verif.Model.FastCore
import Verif.Spec.FastKeys
import Verif.Model.RandomBytes
/-
Key generation together with the operating system's random device: `xmss_keypair`/`xmssmt_keypair` with the calls of
`randombytes` in place of given seeds.
-/
namespace Xmss

/-- Outcome of key generation (xmss.c:10-26, xmss.c:62-75): still waiting for the device, or returned with value, key buffers and the unused results
of the device. -/
inductive KeygenOut
  | waiting
  | done (ret : Int) (pk sk : Bytes) (rest : List ReadResult)
deriving DecidableEq, Repr

/-- xmss.c:10-26, 62-75 with `xmssmt_core_keypair` of xmss_core.c:168-177; `buf k` is the content of the fresh local array
`seed` of `k` bytes, `isOpen`, `opens`, `reads` the device (Model/RandomBytes.lean). -/
def apiKeypairOs (P : Prims) (parse : Nat → Option Params) (buf : Nat → Bytes) (isOpen : Bool) (opens : List Bool)
    (reads : List ReadResult) (pk sk : Bytes) (oid : Nat) : Option KeygenOut :=
  match parse oid with
  | none => some (.done (-1) pk sk reads)
  | some p => do
    let pk ← wr pk 0 (oidBytes oid)
    let sk ← wr sk 0 (oidBytes oid)
    match ← randombytes isOpen opens reads (buf (3 * p.n)) 0 (3 * p.n) with
    | .waiting => some .waiting
    | .returned seed _ rest => do
      let H ← coreHash P p.func p.n
      let r ← coreSeedKeypair H p (pk.drop oidLen) (sk.drop oidLen) seed
      some (.done 0 (pk.take oidLen ++ r.1) (sk.take oidLen ++ r.2) rest)

/-- xmss.c:10-26, 62-75 with `xmss_core_keypair`, `xmssmt_core_keypair` of xmss_core_fast.c:538-575, 727-776, which call
`randombytes` twice with pointers into the secret key (lines 559, 562 and 753, 756).  Simplification: the two calls are
made before the rest of the function, not after its first statements, which read or write other bytes; `core` then writes
the same bytes to the same places once more. -/
def apiKeypairFastOs (P : Prims) (parse : Nat → Option Params)
    (core : (Bytes → Bytes) → Params → Bytes → Bytes → Bytes → Option (Bytes × Bytes)) (isOpen : Bool) (opens : List Bool)
    (reads : List ReadResult) (pk sk : Bytes) (oid : Nat) : Option KeygenOut :=
  match parse oid with
  | none => some (.done (-1) pk sk reads)
  | some p => do
    let pk ← wr pk 0 (oidBytes oid)
    let sk ← wr sk 0 (oidBytes oid)
    let body := sk.drop oidLen
    match ← randombytes isOpen opens reads body p.index_bytes (2 * p.n) with
    | .waiting => some .waiting
    | .returned body _ rest => do
      match ← randombytes true [] rest body (p.index_bytes + 3 * p.n) p.n with
      | .waiting => some .waiting
      | .returned body _ rest => do
        let seed ← rd body p.index_bytes (2 * p.n)
        let pubSeed ← rd body (p.index_bytes + 3 * p.n) p.n
        let H ← coreHash P p.func p.n
        let r ← core H p (pk.drop oidLen) body (seed ++ pubSeed)
        some (.done 0 (pk.take oidLen ++ r.1) (sk.take oidLen ++ r.2) rest)

/-- `xmss_keypair` (xmss.c:10-26) and `xmssmt_keypair` (xmss.c:62-75), simple implementation. -/
def keypairOs (P : Prims) (f : Family) := apiKeypairOs P f.parse

/-- `xmss_keypair` (xmss.c:10-26) and `xmssmt_keypair` (xmss.c:62-75), fast implementation. -/
def keypairFastOs (P : Prims) : Family → Bool → List Bool → List ReadResult → Bytes → Bytes → Nat → Option KeygenOut
  | .xmss => apiKeypairFastOs P Family.xmss.parseFast fastXmssKeypair
  | .xmssmt => apiKeypairFastOs P Family.xmssmt.parseFast fastXmssmtKeypair

end Xmss
