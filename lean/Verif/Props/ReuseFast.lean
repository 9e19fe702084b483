import Verif.Props.Reuse
import Verif.Props.Fast
/-
C63 for the fast implementation.
-/
namespace Xmss
open Reuse

variable {P : Prims} {oid : Nat} {p pf : Params} {H : Bytes → Bytes}

/-- **C63 (fast build).**  The same for keys and signatures of `xmss_core_fast.c`. -/
theorem C63_fast (hp : parseXmss oid = some p) (hpf : parseXmssFast oid = some pf) (hH : coreHash P p.func p.n = some H)
    (pk0 sk0 : Bytes) (hpk : pk0.length = 4 + pf.pk_bytes) (hsk : sk0.length = 4 + pf.sk_bytes) (seed : Nat → Bytes)
    (hs : (seed p.n).length = 3 * p.n) :
    let S := suiteOf p H
    ∃ pk sk, xmssKeypairFast P pk0 sk0 oid seed = some (0, pk, sk) ∧
      let root := (pk.drop 4).take p.n
      let pubSeed := pk.drop (4 + p.n)
      ∀ cs c1 c2, Sized p (cs ++ [c1]) → Sized p (cs ++ [c2]) → cs.length < 2 ^ p.full_height - 1 →
      ∃ outs outs' o1 o2, signAllFast P .xmss sk (cs ++ [c1]) = some (outs ++ [o1]) ∧
        signAllFast P .xmss sk (cs ++ [c2]) = some (outs' ++ [o2]) ∧
        let sig1 := o1.sm.take p.sig_bytes
        let sig2 := o2.sm.take p.sig_bytes
        o1.ret = 0 ∧ o2.ret = 0 ∧ index S sig1 = cs.length ∧ index S sig2 = cs.length ∧
        ∀ r m : Bytes, r.length = p.n → p.sig_bytes + m.length < 2 ^ 64 →
          (∀ j < S.len, digit S root (randomiser S sig1) cs.length c1.msg j ≤ digit S root r cs.length m j ∨
            digit S root (randomiser S sig2) cs.length c2.msg j ≤ digit S root r cs.length m j) →
          ∀ (mbuf : Bytes) (l0 : Nat), p.sig_bytes + m.length ≤ mbuf.length →
            ∃ v, xmssSignOpen P mbuf l0 (forge S root pubSeed sig1 c1.msg sig2 c2.msg r m ++ m) (p.sig_bytes + m.length) pk =
              some v ∧ v.ret = 0 ∧ v.mlen = m.length ∧ v.m.take v.mlen = m := by
  intro S
  set pks := List.replicate (4 + p.pk_bytes) (0 : UInt8) with hpks
  set sks := List.replicate (4 + p.sk_bytes) (0 : UInt8) with hsks
  obtain ⟨pk, sk, skf, e1, e2, hist⟩ := C32_fast_xmss_equals_simple (P := P) hp hpf pks sks pk0 sk0 (by simp [hpks])
    (by simp [hsks]) hpk hsk seed hs
  obtain ⟨pk', sk', e3, hall⟩ := C63_reuse_forges (f := .xmss) hp hH pks sks (by simp [hpks]) (by simp [hsks]) seed hs
  have e3' : xmssKeypair P pks sks oid seed = some (0, pk', sk') := e3
  rw [e1] at e3'
  obtain ⟨rfl, rfl⟩ : pk = pk' ∧ sk = sk' := by simpa using e3'
  refine ⟨pk, skf, e2, ?_⟩
  intro root pubSeed cs c1 c2 h1 h2 hlen
  obtain ⟨outs, o1, o2, s1, s2, r1, r2, i1, i2, hf⟩ := hall cs c1 c2 h1 h2 hlen
  have last : ∀ (c : Call) (o : SignOut), Sized p (cs ++ [c]) → signAll P .xmss sk (cs ++ [c]) = some (outs ++ [o]) →
      ∃ outs' o', signAllFast P .xmss skf (cs ++ [c]) = some (outs' ++ [o']) ∧ o'.ret = 0 ∧ o'.sm = o.sm := by
    intro c o hc hso
    obtain ⟨os, ofs, g1, g2, g3, g4, g5⟩ := hist _ hc
    rw [hso, Option.some.injEq] at g1
    subst g1
    have l1 : ofs.length = cs.length + 1 := by rw [g4]; simp
    have l2 : outs.length = cs.length := by simp at g3; exact g3
    have hne : ofs ≠ [] := by intro h; rw [h] at l1; simp at l1
    refine ⟨ofs.dropLast, ofs.getLast hne, by rw [g2, List.dropLast_append_getLast hne], ?_⟩
    obtain ⟨a, b, c', _⟩ := g5 cs.length o (ofs.getLast hne) hlen (by rw [← l2]; simp)
      (by rw [show cs.length = ofs.length - 1 by omega, ← List.getLast?_eq_getElem?, List.getLast?_eq_some_getLast hne])
    exact ⟨a, c'⟩
  obtain ⟨outs1, o1', t1, t2, t3⟩ := last c1 o1 h1 s1
  obtain ⟨outs2, o2', u1, u2, u3⟩ := last c2 o2 h2 s2
  refine ⟨outs1, outs2, o1', o2', t1, u1, ?_⟩
  rw [t3, u3]
  exact ⟨t2, u2, i1, i2, hf⟩

end Xmss
