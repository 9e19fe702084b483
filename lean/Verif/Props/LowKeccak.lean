import Verif.Proof.LowKeccakUndef
import Verif.Proof.LowHash
import Verif.Proof.LowObs
import Verif.Props.Keccak
import Verif.Props.Sign
/-
C85: fips202.c and core_hash on explicit memory.
-/
namespace Xmss.Low
open Fips202 (bits)

theorem shake_holds {r : Nat} (hr : r % 8 = 0) (hr0 : 0 < r) (hr2 : r ≤ 200) {m : Mem} {out inp : Ptr} {outlen : Nat} {x : Bytes}
    (hx : Holds m inp x) (hout : Room m out outlen) (hl : (shakeRate r outlen x).length = outlen) :
    ∃ m', shake r m out outlen inp x.length = some m' ∧ OnlyIn m m' [(out, outlen)] ∧ Holds m' out (shakeRate r outlen x) := by
  obtain ⟨o, h1, h2⟩ := hout
  by_cases h0 : outlen = 0
  · subst h0
    refine ⟨m, shake_zero hr hr0 hr2 (hx.load rfl), onlyIn_refl _ _, ?_⟩
    rw [List.eq_nil_of_length_eq_zero hl]
    exact ⟨⟨o, h1, h2⟩, fun i v h => by simp at h⟩
  · have ho : out.blk < m.length := (List.getElem?_eq_some_iff.mp h1).1
    have v : Valid m out outlen := ⟨o, h1, h2⟩
    obtain ⟨m', hm⟩ := v.store (x := shakeRate r outlen x) (by omega)
    refine ⟨m', (shake_of hr hr0 hr2 (hx.load rfl) ho (by omega)).trans hm, ?_, Holds.of_load (load_store_self hm)⟩
    have := store_onlyIn hm
    rwa [hl] at this

/-- **C85 (shake128).**  For every memory, message, output length and pair of pointers, whatever their overlap: the call is
defined, writes SHAKE128 of FIPS 202 of the message that was there when it was made, and changes no other byte. -/
theorem C85_shake128 (m : Mem) (out inp : Ptr) (outlen : Nat) (x : Bytes) (hx : Holds m inp x) (hout : Room m out outlen) :
    ∃ (m' : Mem) (y : Bytes), shake128 m out outlen inp x.length = some m' ∧ OnlyIn m m' [(out, outlen)] ∧ Holds m' out y ∧
      y.length = outlen ∧ bits y = Fips202.SHAKE128 (bits x) (8 * outlen) := by
  have c := C38_shake128 outlen x
  obtain ⟨m', h1, h2, h3⟩ := shake_holds (r := 168) (by decide) (by decide) (by decide) hx hout c.1
  exact ⟨m', _, h1, h2, h3, c⟩

/-- **C85 (shake256).**  Likewise. -/
theorem C85_shake256 (m : Mem) (out inp : Ptr) (outlen : Nat) (x : Bytes) (hx : Holds m inp x) (hout : Room m out outlen) :
    ∃ (m' : Mem) (y : Bytes), shake256 m out outlen inp x.length = some m' ∧ OnlyIn m m' [(out, outlen)] ∧ Holds m' out y ∧
      y.length = outlen ∧ bits y = Fips202.SHAKE256 (bits x) (8 * outlen) := by
  have c := C38_shake256 outlen x
  obtain ⟨m', h1, h2, h3⟩ := shake_holds (r := 136) (by decide) (by decide) (by decide) hx hout c.1
  exact ⟨m', _, h1, h2, h3, c⟩

theorem shake_defined {r : Nat} (hr : r % 8 = 0) (hr0 : 0 < r) (hr2 : r ≤ 200) {m : Mem} {out inp : Ptr} {outlen inlen : Nat}
    (hl : ∀ x, (shakeRate r outlen x).length = outlen)
    (hi : inp.blk < m.length) (ho : out.blk < m.length) (hin : 0 < inlen) (hon : 0 < outlen) :
    (∃ m', shake r m out outlen inp inlen = some m') ↔ (∃ x, x.length = inlen ∧ Holds m inp x) ∧ Room m out outlen := by
  constructor
  · rintro ⟨m', h⟩
    obtain ⟨x, hx⟩ := shake_reads hr hr0 hi hin h
    refine ⟨⟨x, load_length hx, Holds.of_load hx⟩, ?_⟩
    rw [shake_of hr hr0 hr2 hx ho hon] at h
    have := (Holds.of_load (load_store_self h)).1
    have hb := store_onlyIn h
    rw [hl] at this
    obtain ⟨o, h1, h2⟩ := this
    have e := congrArg (fun l => l[out.blk]?) hb.1
    simp only [List.getElem?_map, h1, Option.map_some] at e
    obtain ⟨o', e1, e2⟩ := Option.map_eq_some_iff.mp e.symm
    exact ⟨o', e1, by omega⟩
  · rintro ⟨⟨x, rfl, hx⟩, hout⟩
    obtain ⟨m', h, _⟩ := shake_holds hr hr0 hr2 hx hout (hl x)
    exact ⟨m', h⟩

/-- **C85 (when the calls are defined).**  Pointers into existing objects, lengths not zero: a call is defined exactly if all
bytes of the input are initialised and inside its object, and the output has room. -/
theorem C85_defined (m : Mem) (out inp : Ptr) (outlen inlen : Nat) (hi : inp.blk < m.length) (ho : out.blk < m.length)
    (hin : 0 < inlen) (hon : 0 < outlen) :
    ((∃ m', shake128 m out outlen inp inlen = some m') ↔ (∃ x, x.length = inlen ∧ Holds m inp x) ∧ Room m out outlen) ∧
    ((∃ m', shake256 m out outlen inp inlen = some m') ↔ (∃ x, x.length = inlen ∧ Holds m inp x) ∧ Room m out outlen) :=
  ⟨shake_defined (r := 168) (by decide) (by decide) (by decide) (fun x => (C38_shake128 outlen x).1) hi ho hin hon,
    shake_defined (r := 136) (by decide) (by decide) (by decide) (fun x => (C38_shake256 outlen x).1) hi ho hin hon⟩

/-- What `core_hash` has to compute for the parameters `n` and `func` (the hash functions named in the README and in the comments
of hash.c; RFC 8391 section 5.1 and SP 800-208 section 5), given OpenSSL's SHA-256 and SHA-512. -/
def HashOf (P : Prims) (p : Params) (x y : Bytes) : Prop :=
  y.length = p.n ∧
  match p.func, p.n with
  | .sha2, 24 => y = (P.sha256 x).take 24
  | .sha2, 32 => y = P.sha256 x
  | .sha2, 64 => y = P.sha512 x
  | .shake128, 32 => bits y = Fips202.SHAKE128 (bits x) 256
  | .shake256, 24 => bits y = Fips202.SHAKE256 (bits x) 192
  | .shake256, 32 => bits y = Fips202.SHAKE256 (bits x) 256
  | .shake256, 64 => bits y = Fips202.SHAKE256 (bits x) 512
  | _, _ => False

/-- **C85 (core_hash).**  For the parameter sets of every accepted OID, every memory, every message and every pair of pointers:
the hash of the message that was there is written, no other byte changes. -/
theorem C85_core_hash (P : Prims) (f : Xmss.Family) (oid : Nat) (p : Params) (hp : f.parse oid = some p) (m : Mem) (out inp : Ptr)
    (x : Bytes) (hx : Holds m inp x) (hout : Room m out p.n) :
    ∃ (m' : Mem) (y : Bytes), coreHash P p m out inp x.length = some m' ∧ OnlyIn m m' [(out, p.n)] ∧ Holds m' out y ∧
      HashOf P p x y := by
  obtain ⟨g, _, _, H, hH⟩ := Family.facts (P := P) hp
  have hl := Family.hash_length hp hH
  have ho : out.blk < m.length := by
    obtain ⟨o, h1, _⟩ := hout
    exact (List.getElem?_eq_some_iff.mp h1).1
  have v : Valid m out p.n := hout
  obtain ⟨m', hm⟩ := v.store (x := H x) (by rw [hl])
  refine ⟨m', H x, (coreHash_of hH (hx.load rfl) ho).trans hm, ?_, Holds.of_load (load_store_self hm), hl x, ?_⟩
  · have := store_onlyIn hm
    rwa [hl] at this
  · clear v hm hl hp g hout hx
    obtain ⟨func, n, pad, wk, lw, l1, l2, fh, d, ix, pkb, skb, sgb⟩ := p
    simp only [Xmss.coreHash] at hH
    split at hH
    · rename_i h; obtain ⟨rfl, rfl⟩ := h; obtain rfl := Option.some.inj hH; rfl
    split at hH
    · rename_i h; obtain ⟨rfl, rfl⟩ := h; obtain rfl := Option.some.inj hH; exact (C38_shake256 24 x).2
    split at hH
    · rename_i h; obtain ⟨rfl, rfl⟩ := h; obtain rfl := Option.some.inj hH; rfl
    split at hH
    · rename_i h; obtain ⟨rfl, rfl⟩ := h; obtain rfl := Option.some.inj hH; exact (C38_shake128 32 x).2
    split at hH
    · rename_i h; obtain ⟨rfl, rfl⟩ := h; obtain rfl := Option.some.inj hH; exact (C38_shake256 32 x).2
    split at hH
    · rename_i h; obtain ⟨rfl, rfl⟩ := h; obtain rfl := Option.some.inj hH; rfl
    split at hH
    · rename_i h; obtain ⟨rfl, rfl⟩ := h; obtain rfl := Option.some.inj hH; exact (C38_shake256 64 x).2
    cases hH

/-- An object of 300 bytes, the first 200 of them initialised: a message longer than one block of either function. -/
def overlapMem : Mem := [List.replicate 200 (some 7) ++ List.replicate 100 none]

/-- The hypotheses of `C85_shake128` and `C85_shake256` are met with an output of more than one block that starts inside the
message and ends in uninitialised bytes. -/
theorem C85_instance : Holds overlapMem ⟨0, 3⟩ (List.replicate 190 7) ∧ Room overlapMem ⟨0, 100⟩ 180 ∧
    ¬ Apart ⟨0, 3⟩ 190 ⟨0, 100⟩ 180 := by
  refine ⟨holds_iff.mpr (by decide +kernel), ⟨_, rfl, by decide +kernel⟩, ?_⟩
  unfold Apart
  decide

/-- One byte beyond the initialised ones: the same call is undefined. -/
theorem C85_instance_undefined : (∀ m', shake128 overlapMem ⟨0, 100⟩ 180 ⟨0, 3⟩ 198 ≠ some m') ∧
    (∀ m', shake256 overlapMem ⟨0, 121⟩ 180 ⟨0, 3⟩ 190 ≠ some m') := by
  constructor
  · intro m' h
    obtain ⟨⟨x, hl, hx⟩, _⟩ := (C85_defined overlapMem ⟨0, 100⟩ ⟨0, 3⟩ 180 198 (by decide) (by decide) (by decide) (by decide)).1.mp
      ⟨m', h⟩
    have := hx.load hl
    rw [show load overlapMem ⟨0, 3⟩ 198 = none by decide +kernel] at this
    cases this
  · intro m' h
    obtain ⟨_, o, h1, h2⟩ := (C85_defined overlapMem ⟨0, 121⟩ ⟨0, 3⟩ 180 190 (by decide) (by decide) (by decide) (by decide)).2.mp
      ⟨m', h⟩
    obtain rfl := Option.some.inj h1
    exact absurd h2 (by decide +kernel)

/-- Concrete parameters for `C85_core_hash`: XMSS-SHAKE_10_256, hashing the overlapping message in place. -/
example (P : Prims) : ∃ (p : Params) (m' : Mem) (y : Bytes), (Xmss.Family.xmss).parse 0x07 = some p ∧ p.func = .shake128 ∧
    coreHash P p overlapMem ⟨0, 3⟩ ⟨0, 3⟩ 190 = some m' ∧ Holds m' ⟨0, 3⟩ y ∧
    bits y = Fips202.SHAKE128 (bits (List.replicate 190 7)) 256 := by
  have hp : ∃ p, (Xmss.Family.xmss).parse 0x07 = some p ∧ p.func = .shake128 ∧ p.n = 32 := by decide +kernel
  obtain ⟨p, h1, h2, h3⟩ := hp
  obtain ⟨m', y, e1, _, e3, _, e5⟩ := C85_core_hash P .xmss 0x07 p h1 overlapMem ⟨0, 3⟩ ⟨0, 3⟩ (List.replicate 190 7) C85_instance.1
    ⟨_, rfl, by rw [h3]; decide +kernel⟩
  rw [h2, h3] at e5
  rw [List.length_replicate] at e1
  exact ⟨p, m', y, h1, h2, e1, e3, e5⟩

end Xmss.Low
