/-
The parameter set tables of RFC 8391 (sections 5.3, 5.4 and 8) and NIST SP 800-208 (sections 5.1-5.4), written as
"hash groups" times "tree shapes"; the OIDs are consecutive numbers, group by group.
-/
namespace Registry

inductive Family
  | sha2 | shake128 | shake256
deriving DecidableEq, Repr, Inhabited

/-- A hash group: the word used in the name, the function, n, and the length of the domain separation prefix. -/
structure Group where
  word : String
  family : Family
  n : Nat
  pad : Nat
deriving DecidableEq, Repr, Inhabited

/-- The seven hash groups in OID order. -/
def groups : List Group :=
  [⟨"SHA2", .sha2, 32, 32⟩, ⟨"SHA2", .sha2, 64, 64⟩, ⟨"SHAKE", .shake128, 32, 32⟩, ⟨"SHAKE", .shake256, 64, 64⟩,
   ⟨"SHA2", .sha2, 24, 4⟩, ⟨"SHAKE256", .shake256, 32, 32⟩, ⟨"SHAKE256", .shake256, 24, 4⟩]

/-- Heights of the XMSS sets. -/
def xmssHeights : List Nat := [10, 16, 20]

/-- (height, layers) of the XMSS^MT sets. -/
def xmssmtShapes : List (Nat × Nat) := [(20, 2), (20, 4), (40, 2), (40, 4), (40, 8), (60, 3), (60, 6), (60, 12)]

/-- A registered parameter set. -/
structure Entry where
  oid : Nat
  name : String
  family : Family
  n : Nat
  pad : Nat
  h : Nat
  d : Nat
deriving DecidableEq, Repr, Inhabited

/-- `XMSS-<hash>_<h>_<8n>`, number 3·group + height + 1. -/
def xmss : List Entry :=
  groups.zipIdx.flatMap fun (g, i) => xmssHeights.zipIdx.map fun (h, j) =>
    { oid := 3 * i + j + 1, name := "XMSS-" ++ g.word ++ "_" ++ toString h ++ "_" ++ toString (8 * g.n),
      family := g.family, n := g.n, pad := g.pad, h := h, d := 1 }

/-- `XMSSMT-<hash>_<h>/<d>_<8n>`, number 8·group + shape + 1. -/
def xmssmt : List Entry :=
  groups.zipIdx.flatMap fun (g, i) => xmssmtShapes.zipIdx.map fun (s, j) =>
    { oid := 8 * i + j + 1,
      name := "XMSSMT-" ++ g.word ++ "_" ++ toString s.1 ++ "/" ++ toString s.2 ++ "_" ++ toString (8 * g.n),
      family := g.family, n := g.n, pad := g.pad, h := s.1, d := s.2 }

end Registry
