import Verif.Model.Core
import Verif.Proof.Bytes
/-
Well-formed parameter structures and the RFC parameter suite they describe.
-/
namespace Xmss

/-- The RFC 8391 parameter suite described by a parameter structure and a hash function. -/
def suiteOf (p : Params) (H : Bytes → Bytes) : Rfc.Suite :=
  { n := p.n, w := p.wots_w, h := p.full_height, d := p.d, pad := p.padding_len, idxLen := p.index_bytes, hash := H }

/-- Consistency of a parameter structure.  Every structure returned by the OID parsers satisfies it
(`parse_good` in Props/Params). -/
structure Params.Good (p : Params) : Prop where
  n_pos : 0 < p.n
  w_eq : p.wots_w = 2 ^ p.wots_log_w
  logw_mem : p.wots_log_w = 2 ∨ p.wots_log_w = 4
  len1_mul : p.wots_len1 * p.wots_log_w = 8 * p.n
  csum_fits : p.wots_len1 * (p.wots_w - 1) < p.wots_w ^ p.wots_len2
  len2_pos : 0 < p.wots_len2
  len2_mod : (p.wots_len2 * p.wots_log_w) % 8 ≠ 0
  len_eq : p.wots_len = p.wots_len1 + p.wots_len2
  sig_wots : p.wots_sig_bytes = p.wots_len * p.n
  d_pos : 0 < p.d
  height : p.tree_height * p.d = p.full_height
  th_pos : 0 < p.tree_height
  th_lt : p.tree_height < 31
  fh_lt : p.full_height < 64
  idx_le : p.index_bytes ≤ 8
  idx_fits : 2 ^ p.full_height ≤ 256 ^ p.index_bytes
  sig_eq : p.sig_bytes = p.index_bytes + p.n + p.d * p.wots_sig_bytes + p.full_height * p.n
  sig_lt : p.sig_bytes < 2 ^ 32
  pad_le : p.padding_len ≤ p.n
  pk_eq : p.pk_bytes = 2 * p.n
  rfc_len1 : p.wots_len1 = (suiteOf p id).len1
  rfc_len2 : p.wots_len2 = (suiteOf p id).len2

namespace Params.Good
variable {p : Params} (g : p.Good) (H : Bytes → Bytes)
include g

theorem len1_eq : (suiteOf p H).len1 = p.wots_len1 := g.rfc_len1.symm
theorem len2_eq : (suiteOf p H).len2 = p.wots_len2 := g.rfc_len2.symm
theorem len_eq' : (suiteOf p H).len = p.wots_len := by
  rw [Rfc.Suite.len, g.len1_eq, g.len2_eq, g.len_eq]
theorem hp_eq : (suiteOf p H).hp = p.tree_height := by
  show p.full_height / p.d = _
  rw [← g.height, Nat.mul_div_cancel _ g.d_pos]
theorem len_pos : 0 < p.wots_len := by have := g.len_eq; have := g.len2_pos; omega
theorem len_ge : 3 * 1 ≤ p.wots_len := by
  have h1 := g.len1_mul; have := g.n_pos; have := g.len_eq; have := g.len2_pos
  rcases g.logw_mem with h | h <;> rw [h] at h1 <;> omega
theorem sig_eq' : p.sig_bytes = p.index_bytes + p.n + p.d * ((p.wots_len + p.tree_height) * p.n) := by
  rw [g.sig_eq, g.sig_wots, ← g.height]; ring
theorem sigLen_eq : (suiteOf p H).sigLen = p.sig_bytes := by
  rw [g.sig_eq', Rfc.Suite.sigLen, g.len_eq', g.hp_eq]; rfl
theorem w_pos : 0 < p.wots_w := by rw [g.w_eq]; positivity
theorem w_ge : 4 ≤ p.wots_w := by
  rw [g.w_eq]; rcases g.logw_mem with h | h <;> rw [h] <;> decide
theorem w_le : p.wots_w ≤ 16 := by
  rw [g.w_eq]; rcases g.logw_mem with h | h <;> rw [h] <;> decide
/-- the prefix of the message hash fits in front of the message, behind index and R -/
theorem prefix_fits : p.index_bytes + p.n + (p.padding_len + 3 * p.n) ≤ p.sig_bytes := by
  have h1 := g.len1_mul
  have hn := g.n_pos
  have h3 : 4 ≤ p.wots_len + p.tree_height := by have := g.len_ge; have := g.th_pos; omega
  rw [g.sig_eq']
  have h4 : 4 * p.n ≤ (p.wots_len + p.tree_height) * p.n := Nat.mul_le_mul_right _ h3
  have h5 : 1 * ((p.wots_len + p.tree_height) * p.n) ≤ p.d * ((p.wots_len + p.tree_height) * p.n) :=
    Nat.mul_le_mul_right _ g.d_pos
  have := g.pad_le
  omega
end Params.Good
end Xmss
