import Verif.Props.StrongForgery
import Verif.Props.FastHistory
/-
C58 for the fast implementation: its signed messages are those of the reduction in StrongForgery.lean.
-/
namespace Xmss

variable {P : Prims} {f : Family} {oid : Nat} {p pf : Params} {H : Bytes → Bytes}

/-- **C58, fast implementation.**  The same statement for a key generated and used with the fast implementation: histories of
at most `2^h - 1` sign calls (for 40/8 and 60/12: fewer than `2^20`, because beyond that the fast implementation issues
invalid signatures, C33_fails).  Whatever open accepts (in either build, C49) and was not issued contains one of the breaks
listed in `Broken`, which is the disjunction of C58. -/
theorem C58_fast (hp : f.parse oid = some p) (hpf : f.parseFast oid = some pf) (hH : coreHash P p.func p.n = some H)
    (pk0 sk0 : Bytes) (hpk : pk0.length = 4 + pf.pk_bytes) (hsk : sk0.length = 4 + pf.sk_bytes) (seed : Nat → Bytes)
    (hs : (seed p.n).length = 3 * p.n) :
    ∃ (k : Key) (sk : Bytes), k.Valid p ∧ f.keypairFast P pk0 sk0 oid seed = some (0, k.pk oid, sk) ∧
      ∀ cs : List Call, (∀ c ∈ cs, c.sm.length = p.sig_bytes + c.msg.length) → cs.length ≤ 2 ^ p.full_height - 1 →
        (p.d ≤ p.tree_height / 2 + 2 ∨ cs.length < 2 ^ (p.tree_height * (p.tree_height / 2 + 2))) →
        ∃ outs : List FastOut, signAllFast P f sk cs = some outs ∧
          ∀ (sig msg m : Bytes) (l0 : Nat) (r : OpenOut), sig.length = p.sig_bytes → p.sig_bytes + msg.length < 2 ^ 64 →
            p.sig_bytes + msg.length ≤ m.length →
            f.signOpenFast P m l0 (sig ++ msg) (p.sig_bytes + msg.length) (k.pk oid) = some r → r.ret = 0 →
            (∀ o ∈ outs, o.sm ≠ sig ++ msg) → Broken p H k (cs.map (·.msg)) sig msg := by
  obtain ⟨pf', hpf', e⟩ := parse_both hp
  rw [hpf] at hpf'
  cases hpf'
  have hHf : coreHash P pf.func pf.n = some H := by rw [e]; exact hH
  have hS : suiteOf pf H = suiteOf p H := by rw [e]; rfl
  have en : pf.n = p.n := by rw [e]
  have esig : pf.sig_bytes = p.sig_bytes := by rw [e]
  have efh : pf.full_height = p.full_height := by rw [e]
  have eth : pf.tree_height = p.tree_height := by rw [e]
  have ed : pf.d = p.d := by rw [e]
  obtain ⟨k, hv, hh, _, sk, _, ek, hist⟩ := fast_history hpf hHf pk0 sk0 hpk hsk seed (by rw [en]; exact hs)
  have hv' : k.Valid p := ⟨by rw [← en]; exact hv.skSeed, by rw [← en]; exact hv.skPrf, by rw [← en]; exact hv.root,
    by rw [← en]; exact hv.pubSeed⟩
  refine ⟨k, _, hv', ek, ?_⟩
  intro cs hcs hlen hlim
  have hpos : 0 < 2 ^ p.full_height := Nat.two_pow_pos _
  obtain ⟨os, e1, l1, h1⟩ := hist cs (by rw [esig]; exact fun c hc => (hcs c hc).ge)
    ⟨fun h => by rw [efh] at h; rw [h] at hlen; omega, by rw [ed, eth]; exact hlim⟩
  refine ⟨_, e1, ?_⟩
  intro sig msg m l0 r hsig h64 hm hr hacc hnew
  rw [C49_open_is_the_same] at hr
  refine strong_reduction hp hH k hv' (hS ▸ hh) cs (by omega) sig msg m l0 r hsig h64 hm hr hacc ?_
  intro c hc he
  have hjl := (List.getElem?_eq_some_iff.mp hc).1
  obtain ⟨o, ho, post⟩ := h1 _ c hc
  obtain ⟨_, _, c3, _⟩ := post.ok (by rw [efh]; omega)
  refine hnew { o with sk := Rfc.toByte oid 4 ++ o.sk } ?_ ?_
  · exact List.mem_map.mpr ⟨o, List.mem_of_getElem? ho, rfl⟩
  · simp only
    rw [c3, hS, esig, ← hcs c (List.mem_of_getElem? hc), List.drop_length, List.append_nil]
    exact he.symm

/-- The hypotheses are met: XMSS-SHA2_10_256 (both parsers accept OID 1) and a history of two calls. -/
example : ∃ p pf : Params, Family.xmss.parse 1 = some p ∧ Family.xmss.parseFast 1 = some pf ∧ p.d ≤ p.tree_height / 2 + 2 ∧
    2 ≤ 2 ^ p.full_height - 1 := by
  refine ⟨_, _, rfl, rfl, ?_, ?_⟩ <;> decide +kernel

end Xmss
