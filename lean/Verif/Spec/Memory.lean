import Verif.Model.Low
/-
Vocabulary for statements about the pointer-level model: what memory contains at a place and what a call left unchanged.
Only the types of memory and pointers are taken from the model.
-/
namespace Xmss.Low

/-- The byte at offset `i` of object `b`: `none` if there is no such byte, `some none` if it is not initialised. -/
def cell (m : Mem) (b i : Nat) : Option Cell := (m[b]?).bind fun o => o[i]?

/-- There are `len` bytes at `q` (initialised or not). -/
def Room (m : Mem) (q : Ptr) (len : Nat) : Prop := ∃ o, m[q.blk]? = some o ∧ q.off + len ≤ o.length

/-- The bytes at `q` are `x`. -/
def Holds (m : Mem) (q : Ptr) (x : Bytes) : Prop :=
  Room m q x.length ∧ ∀ i v, x[i]? = some v → cell m q.blk (q.off + i) = some (some v)

/-- The `a` bytes at `q` and the `b` bytes at `r` do not overlap. -/
def Apart (q : Ptr) (a : Nat) (r : Ptr) (b : Nat) : Prop :=
  q.blk ≠ r.blk ∨ q.off + a ≤ r.off ∨ r.off + b ≤ q.off

/-- Byte `i` of object `b` is one of the bytes described by the list of ranges. -/
def Within (rs : List (Ptr × Nat)) (b i : Nat) : Prop := ∃ r ∈ rs, b = r.1.blk ∧ r.1.off ≤ i ∧ i < r.1.off + r.2

/-- The same objects exist, with the same sizes, and no byte outside of the ranges has changed. -/
def OnlyIn (m m' : Mem) (rs : List (Ptr × Nat)) : Prop :=
  m'.map List.length = m.map List.length ∧ ∀ b i, ¬ Within rs b i → cell m' b i = cell m b i

end Xmss.Low
