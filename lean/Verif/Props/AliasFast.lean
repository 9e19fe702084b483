import Verif.Props.AliasOpen
import Verif.Props.FastHistory
import Verif.Props.SelfTest
/-
C64, C65 for the fast implementation: it copies the message a second time after the signature has been written.
-/
namespace Xmss
open Alias

variable {P : Prims} {f : Family} {oid : Nat} {p pf : Params} {H : Bytes → Bytes}

/-- `xmss_sign` / `xmssmt_sign` of the fast build with the pointers `sm` and `m` into one memory. -/
def Family.signFastIn (P : Prims) : Family → Bytes → Bytes → Nat → Nat → Nat → Nat → Option FastOut
  | .xmss => apiSignFastIn P parseXmssFast fastXmssSign
  | .xmssmt => apiSignFastIn P parseXmssmtFast fastXmssmtSign

namespace Alias

/-- The model function shared by the two families. -/
theorem signFastIn_call (parse : Nat → Option Params)
    (core : (Bytes → Bytes) → Params → Bytes → Bytes → Nat → Bytes → Option FastOut) (hp : parse oid = some p)
    (hH : coreHash P p.func p.n = some H) (sk mem : Bytes) (hoid : readOid sk = some oid) (sm m mlen l0 : Nat)
    (hsm : sm + (p.sig_bytes + mlen) ≤ mem.length) (hm : m + mlen ≤ mem.length)
    (o : FastOut) (sig : Bytes) (hsig : sig.length = p.sig_bytes)
    (ho : apiSignFast P parse core sk (at_ mem sm (p.sig_bytes + mlen)) l0 (at_ mem m mlen) = some o) :
    (o.ret ≠ 0 → apiSignFastIn P parse core sk mem sm l0 m mlen = some { o with sm := mem }) ∧
    (o.ret = 0 → o.sm = sig ++ at_ mem m mlen →
      (m = sm + p.sig_bytes ∨ m + mlen ≤ sm + p.sig_bytes ∨ sm + p.sig_bytes + mlen ≤ m →
        apiSignFastIn P parse core sk mem sm l0 m mlen =
          some { o with sm := put mem sm (sig ++ at_ (put mem sm sig) m mlen) }) ∧
      (0 < mlen → ¬(m = sm + p.sig_bytes ∨ m + mlen ≤ sm + p.sig_bytes ∨ sm + p.sig_bytes + mlen ≤ m) →
        apiSignFastIn P parse core sk mem sm l0 m mlen = none)) := by
  rw [apiSignFast, hoid] at ho
  simp only [Option.bind_eq_bind, Option.bind_some, hp, hH] at ho
  rw [apiSignFastIn, hoid]
  simp only [Option.bind_eq_bind, Option.bind_some, hp, hH]
  cases hc : core H p (sk.drop oidLen) (at_ mem sm (p.sig_bytes + mlen)) l0 (at_ mem m mlen) with
  | none => rw [hc] at ho; cases ho
  | some c =>
    rw [hc] at ho
    simp only [Option.bind_some, Option.some.injEq] at ho
    subst ho
    rw [fastSignIn]
    simp only [Option.bind_eq_bind]
    rw [rd_at hsm, rd_at hm]
    simp only [Option.bind_some]
    rw [hc]
    simp only [Option.bind_some]
    refine ⟨fun h => ?_, fun h hs => ⟨fun hd => ?_, fun h0 hd => ?_⟩⟩
    · rw [if_pos h]; rfl
    · have hs' : c.sm = sig ++ at_ mem m mlen := hs
      rw [if_neg (by simpa using h), memcpyIn_put (by omega) hm (by omega), hs', List.take_left' hsig]
      simp only [Option.bind_some]
      have hml : (at_ mem m mlen).length = mlen := at_length hm
      have hl1 : (put mem (sm + p.sig_bytes) (at_ mem m mlen)).length = mem.length := put_length (by omega)
      rw [wr_put (by omega)]
      simp only [Option.bind_some]
      have hl2 : (put (put mem (sm + p.sig_bytes) (at_ mem m mlen)) sm sig).length = mem.length := by
        rw [put_length] <;> omega
      rw [memcpyIn_put (by omega) (by omega) (by omega)]
      simp only [Option.bind_some]
      have hl3 : (put mem sm sig).length = mem.length := put_length (by omega)
      have e1 : at_ (put (put mem (sm + p.sig_bytes) (at_ mem m mlen)) sm sig) m mlen = at_ (put mem sm sig) m mlen := by
        rw [put_comm (by omega) (by omega) (by omega)]
        by_cases hself : m = sm + p.sig_bytes
        · rw [← hself, at_put_same (by omega) hml.symm]
          rw [at_put_disj (by omega) (by omega)]
        · rw [at_put_disj (by omega) (by omega)]
      have hml' : (at_ (put mem sm sig) m mlen).length = mlen := at_length (by omega)
      rw [e1, put_comm (mem := mem) (by omega) (by omega) (by omega), put_over (by omega) (by omega),
        put_put (by omega) (by omega)]
    · rw [if_neg (by simpa using h), memcpyIn_none h0 (by omega)]
      rfl

end Alias

/-- **C64 (signing, fast build).**  Given what the call does on separate buffers (`o`): if it has no key left the memory is
not touched; otherwise the message must not overlap the place behind the signature, and what is stored there in the end is
what lies at `m` after the signature has been written.  So a message that is disjoint from the whole output, or already in
its place, gives the same result as separate buffers; one that lies under the signature gives something else. -/
theorem C64_sign_fast (hp : f.parseFast oid = some p) (sk mem : Bytes) (hoid : readOid sk = some oid)
    (sm m mlen l0 : Nat) (hsm : sm + (p.sig_bytes + mlen) ≤ mem.length) (hm : m + mlen ≤ mem.length)
    (o : FastOut) (sig : Bytes) (hsig : sig.length = p.sig_bytes)
    (ho : f.signFast P sk (at_ mem sm (p.sig_bytes + mlen)) l0 (at_ mem m mlen) = some o) :
    (o.ret ≠ 0 → f.signFastIn P sk mem sm l0 m mlen = some { o with sm := mem }) ∧
    (o.ret = 0 → o.sm = sig ++ at_ mem m mlen →
      (m = sm + p.sig_bytes ∨ m + mlen ≤ sm ∨ sm + p.sig_bytes + mlen ≤ m →
        f.signFastIn P sk mem sm l0 m mlen = some { o with sm := put mem sm o.sm }) ∧
      (m + mlen ≤ sm + p.sig_bytes →
        f.signFastIn P sk mem sm l0 m mlen = some { o with sm := put mem sm (sig ++ at_ (put mem sm sig) m mlen) }) ∧
      (0 < mlen → ¬(m = sm + p.sig_bytes ∨ m + mlen ≤ sm + p.sig_bytes ∨ sm + p.sig_bytes + mlen ≤ m) →
        f.signFastIn P sk mem sm l0 m mlen = none)) := by
  obtain ⟨H, hH, _⟩ := Family.hashFast (P := P) hp
  have key : (o.ret ≠ 0 → f.signFastIn P sk mem sm l0 m mlen = some { o with sm := mem }) ∧
    (o.ret = 0 → o.sm = sig ++ at_ mem m mlen →
      (m = sm + p.sig_bytes ∨ m + mlen ≤ sm + p.sig_bytes ∨ sm + p.sig_bytes + mlen ≤ m →
        f.signFastIn P sk mem sm l0 m mlen =
          some { o with sm := put mem sm (sig ++ at_ (put mem sm sig) m mlen) }) ∧
      (0 < mlen → ¬(m = sm + p.sig_bytes ∨ m + mlen ≤ sm + p.sig_bytes ∨ sm + p.sig_bytes + mlen ≤ m) →
        f.signFastIn P sk mem sm l0 m mlen = none)) := by
    cases f with
    | xmss => exact signFastIn_call parseXmssFast fastXmssSign hp hH sk mem hoid sm m mlen l0 hsm hm o sig hsig ho
    | xmssmt => exact signFastIn_call parseXmssmtFast fastXmssmtSign hp hH sk mem hoid sm m mlen l0 hsm hm o sig hsig ho
  refine ⟨key.1, fun h0 hs => ⟨fun hd => ?_, fun h1 => (key.2 h0 hs).1 (by omega), (key.2 h0 hs).2⟩⟩
  have e : at_ (put mem sm sig) m mlen = at_ mem m mlen := at_put_disj (by omega) (by omega)
  rw [(key.2 h0 hs).1 (by omega), e, hs]

/-- **C65 (signing in place, refuted for the fast build).**  For every key of the fast implementation and every history:
signing a message in place (`m == sm`, the message not longer than a signature) returns 0, but what stands behind the
signature afterwards is the beginning of the signature, not the message.  So opening the output never returns the message,
unless the message was equal to the beginning of its own signature; in particular never when it does not begin with the
index. -/
theorem C65_fast_in_place_fails (hp : f.parse oid = some p) (hpf : f.parseFast oid = some pf)
    (hH : coreHash P p.func p.n = some H) (pk0 sk0 : Bytes) (hpk : pk0.length = 4 + pf.pk_bytes)
    (hsk : sk0.length = 4 + pf.sk_bytes) (seed : Nat → Bytes) (hs : (seed p.n).length = 3 * p.n) :
    ∃ (k : Key) (sk : Bytes), k.Valid p ∧ f.keypairFast P pk0 sk0 oid seed = some (0, k.pk oid, sk) ∧
      ∀ cs : List Call, (∀ c ∈ cs, c.sm.length = p.sig_bytes + c.msg.length) → cs.length < 2 ^ p.full_height - 1 →
        (p.d ≤ p.tree_height / 2 + 2 ∨ cs.length + 1 < 2 ^ (p.tree_height * (p.tree_height / 2 + 2))) →
        ∃ outs : List FastOut, signAllFast P f sk cs = some outs ∧
          ∀ (mem : Bytes) (sm l0 mlen : Nat), sm + (p.sig_bytes + mlen) ≤ mem.length → mlen ≤ p.sig_bytes →
            p.sig_bytes + mlen < 2 ^ 64 →
            let sk' := (outs.getLast?.map (·.sk)).getD sk
            let msg := at_ mem sm mlen
            let sig := (suiteOf p H).sign k.skSeed k.skPrf k.root k.pubSeed cs.length msg
            ∃ o, f.signFastIn P sk' mem sm l0 sm mlen = some o ∧ o.ret = 0 ∧ o.smlen = p.sig_bytes + mlen ∧
              at_ o.sm sm (p.sig_bytes + mlen) = sig ++ sig.take mlen ∧
              (msg ≠ sig.take mlen → ∀ (mbuf : Bytes) (l : Nat), p.sig_bytes + mlen ≤ mbuf.length →
                ∃ r, f.signOpenFast P mbuf l (at_ o.sm sm (p.sig_bytes + mlen)) (p.sig_bytes + mlen) (k.pk oid) = some r ∧
                  ¬ (r.ret = 0 ∧ r.m.take r.mlen = msg)) ∧
              (p.index_bytes ≤ mlen → msg.take p.index_bytes ≠ Rfc.toByte cs.length p.index_bytes → msg ≠ sig.take mlen) := by
  obtain ⟨pf', hpf', e⟩ := parse_both hp
  rw [hpf] at hpf'
  cases hpf'
  obtain ⟨g, hskb, ho, _⟩ := Family.facts (P := P) hp
  have hHl := Family.hash_length hp hH
  have hHf : coreHash P pf.func pf.n = some H := by rw [e]; exact hH
  have hS : suiteOf pf H = suiteOf p H := by rw [e]; rfl
  have en : pf.n = p.n := by rw [e]
  have esig : pf.sig_bytes = p.sig_bytes := by rw [e]
  have efh : pf.full_height = p.full_height := by rw [e]
  have eth : pf.tree_height = p.tree_height := by rw [e]
  have ed : pf.d = p.d := by rw [e]
  obtain ⟨k, hv, hh, _, sk, _, ek, hist⟩ := fast_history hpf hHf pk0 sk0 hpk hsk seed (by rw [en]; exact hs)
  have hv' : k.Valid p := ⟨by rw [← en]; exact hv.skSeed, by rw [← en]; exact hv.skPrf, by rw [← en]; exact hv.root,
    by rw [← en]; exact hv.pubSeed⟩
  refine ⟨k, _, hv', ek, ?_⟩
  intro cs hcs hlen hlim
  have hpos : 0 < 2 ^ p.full_height := Nat.two_pow_pos _
  -- one more call, on separate buffers
  have step : ∀ c : Call, c.sm.length = p.sig_bytes + c.msg.length → ∃ outs o,
      signAllFast P f (Rfc.toByte oid 4 ++ sk) cs = some outs ∧
      f.signFast P ((outs.getLast?.map (·.sk)).getD (Rfc.toByte oid 4 ++ sk)) c.sm c.smlen0 c.msg = some o ∧
      readOid ((outs.getLast?.map (·.sk)).getD (Rfc.toByte oid 4 ++ sk)) = some oid ∧
      o.ret = 0 ∧ o.smlen = p.sig_bytes + c.msg.length ∧
      o.sm = (suiteOf p H).sign k.skSeed k.skPrf k.root k.pubSeed cs.length c.msg ++ c.msg := by
    intro c hc
    have hall : ∀ x ∈ cs ++ [c], x.sm.length = p.sig_bytes + x.msg.length := by
      intro x hx
      rcases List.mem_append.mp hx with hx | hx
      · exact hcs x hx
      · rw [List.mem_singleton.mp hx]; exact hc
    obtain ⟨os, e1, l1, h1⟩ := hist (cs ++ [c]) (by rw [esig]; exact fun c hc => (hall c hc).ge)
      ⟨fun h => by rw [efh] at h; rw [h] at hlen; simp only [List.length_append, List.length_singleton]; omega,
        by rw [ed, eth]; simpa using hlim⟩
    obtain ⟨os', o, f1, f2, f3⟩ := signAllFast_snoc P f cs _ c _ e1
    obtain ⟨o', ho', post⟩ := h1 cs.length c (by simp)
    obtain ⟨c1, c2, c3, _⟩ := post.ok (by rw [efh]; omega)
    have ll : os'.length = cs.length := by
      have := congrArg List.length f1
      simp only [List.length_map, List.length_append, List.length_singleton, l1] at this
      omega
    have hoo : o = { o' with sk := Rfc.toByte oid 4 ++ o'.sk } := by
      have := congrArg (fun x => x[cs.length]?) f1
      simp only [List.getElem?_map, ho', Option.map_some] at this
      rw [List.getElem?_append_right (by omega), ll, Nat.sub_self] at this
      simpa using this.symm
    refine ⟨os', o, f2, f3, ?_, ?_, ?_, ?_⟩
    · cases hl : os'.getLast? with
      | none => exact readOid_toByte (by omega) _
      | some x =>
        have hx : x ∈ os.map fun o => { o with sk := Rfc.toByte oid 4 ++ o.sk } := by
          rw [f1]; exact List.mem_append.mpr (Or.inl (List.mem_of_getLast? hl))
        obtain ⟨y, _, rfl⟩ := List.mem_map.mp hx
        exact readOid_toByte (by omega) _
    · rw [hoo]; exact c1
    · rw [hoo, ← esig]; exact c2
    · rw [hoo, ← hS]
      simp only
      rw [c3, esig, ← hc, List.drop_length, List.append_nil]
  obtain ⟨outs, _, hO, _⟩ := step ⟨List.replicate p.sig_bytes 0, 0, []⟩ (by simp)
  refine ⟨outs, hO, ?_⟩
  intro mem sm l0 mlen hsm hml h64 sk' msg sig
  have hmsgl : msg.length = mlen := at_length (by omega)
  have hsgl : sig.length = p.sig_bytes := sign_length g hHl _ _ _ _ _ _
  obtain ⟨outs', o, hO', hcall, hoid, hret, hsl, hosm⟩ := step ⟨at_ mem sm (p.sig_bytes + mlen), l0, msg⟩
    (by simp only [hmsgl]; exact at_length hsm)
  rw [hO] at hO'
  cases hO'
  obtain ⟨_, h2⟩ := C64_sign_fast (P := P) hpf sk' mem hoid sm sm mlen l0 (by rw [esig]; omega) (by omega) o sig
    (by rw [esig]; exact hsgl) (by rw [esig]; exact hcall)
  have h3 := (h2 hret hosm).2.1 (by rw [esig]; omega)
  have ew : at_ (put mem sm sig) sm mlen = sig.take mlen := by
    rw [← at_take (put mem sm sig) sm mlen p.sig_bytes hml, at_put_same (by omega) hsgl.symm]
  rw [ew] at h3
  have hl2 : (sig ++ sig.take mlen).length = p.sig_bytes + mlen := by
    rw [List.length_append, List.length_take, hsgl]; omega
  have eout : at_ (put mem sm (sig ++ sig.take mlen)) sm (p.sig_bytes + mlen) = sig ++ sig.take mlen :=
    at_put_same (by omega) hl2.symm
  refine ⟨_, h3, hret, by rw [← hmsgl]; exact hsl, eout, ?_, ?_⟩
  · intro hne mbuf l hmb
    show ∃ r, f.signOpenFast P mbuf l (at_ (put mem sm (sig ++ sig.take mlen)) sm (p.sig_bytes + mlen)) _ _ = some r ∧ _
    rw [eout, C49_open_is_the_same]
    have htl : (sig.take mlen).length = mlen := by rw [List.length_take, hsgl]; omega
    obtain ⟨r, r1, r2⟩ := C24_open_output (P := P) hp k hv'.root hv'.pubSeed sig (sig.take mlen) mbuf l hsgl
      (by rw [htl]; exact h64) (by rw [htl]; exact hmb)
    rw [htl] at r1 r2
    refine ⟨r, r1, ?_⟩
    rintro ⟨q1, q2⟩
    rcases r2 with ⟨_, a, b⟩ | ⟨a, _⟩
    · rw [a, b] at q2; exact hne q2.symm
    · rw [a] at q1; exact absurd q1 (by decide)
  · intro hi hne he
    apply hne
    rw [he, List.take_take, Nat.min_eq_left hi]
    simp only [sig, Rfc.Suite.sign, List.append_assoc]
    exact List.take_left' (toByte_length _ _)

/-- The hypotheses are met: XMSS-SHA2_10_256, memory of one signature and a 16-byte message, no calls before. -/
example : ∃ p pf : Params, Family.xmss.parse 1 = some p ∧ Family.xmss.parseFast 1 = some pf ∧ p.d ≤ p.tree_height / 2 + 2 ∧
    0 < 2 ^ p.full_height - 1 ∧ 16 ≤ p.sig_bytes ∧ p.index_bytes ≤ 16 ∧
    (List.replicate 16 (7 : UInt8)).take p.index_bytes ≠ Rfc.toByte 0 p.index_bytes := by
  refine ⟨_, _, rfl, rfl, ?_, ?_, ?_, ?_, ?_⟩ <;> decide +kernel

end Xmss
