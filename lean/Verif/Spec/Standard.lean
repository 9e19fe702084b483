import Verif.Spec.Rfc8391
import Verif.Spec.Fips202
import Verif.Spec.Registry
/-
What a registered parameter set means: which hash function (RFC 8391 section 5.1, SP 800-208 section 5) and which
parameters the algorithms of Spec/Rfc8391.lean get.  SHA-256 and SHA-512 are given functions.
-/
namespace Registry

/-- Bytes of the index in a signature and a secret key: 4 for XMSS, ceil(h/8) for XMSS^MT. -/
def Entry.idxLen (e : Entry) : Nat := if e.d = 1 then 4 else (e.h + 7) / 8

/-- The parameters of the set; w = 16 for all of them. -/
def Entry.suite (e : Entry) (hash : Rfc.Bytes → Rfc.Bytes) : Rfc.Suite :=
  { n := e.n, w := 16, h := e.h, d := e.d, pad := e.pad, idxLen := e.idxLen, hash := hash }

/-- Signature size: index, R, and d times a WOTS signature and an authentication path. -/
def Entry.sigLen (e : Entry) : Nat := e.idxLen + e.n + e.d * ((2 * e.n + 3) * e.n + e.h / e.d * e.n)

/-- `H` is the hash function of the set: SHA-256, SHA-512, SHA-256 truncated to 24 bytes, SHAKE128 or SHAKE256 with
`8 n` bits of output. -/
def Entry.IsHash (sha256 sha512 : Rfc.Bytes → Rfc.Bytes) (e : Entry) (H : Rfc.Bytes → Rfc.Bytes) : Prop :=
  match e.family with
  | .sha2 => (e.n = 24 ∧ ∀ x, H x = (sha256 x).take 24) ∨ (e.n = 32 ∧ ∀ x, H x = sha256 x) ∨
      (e.n = 64 ∧ ∀ x, H x = sha512 x)
  | .shake128 => ∀ x, Fips202.bits (H x) = Fips202.SHAKE128 (Fips202.bits x) (8 * e.n)
  | .shake256 => ∀ x, Fips202.bits (H x) = Fips202.SHAKE256 (Fips202.bits x) (8 * e.n)

end Registry
