import Verif.Props.Sign
import Verif.Proof.Verify
/-
C16 (single signature), C21, C23 (verification), C24, C25, C29: opening.
-/
namespace Xmss

variable {P : Prims} {f : Family} {oid : Nat} {p : Params} {H : Bytes → Bytes}

/-- Complete description of one open call for an input that is long enough, any public key with an accepted OID. -/
theorem open_call (hp : f.parse oid = some p) (hH : coreHash P p.func p.n = some H) (k : Key)
    (hr : k.root.length = p.n) (hps : k.pubSeed.length = p.n) (sm m : Bytes) (l0 smlen : Nat)
    (h1 : p.sig_bytes ≤ smlen) (h2 : smlen < 2 ^ 64) (hsm : smlen ≤ sm.length) (hm : smlen ≤ m.length) :
    let sig := sm.take p.sig_bytes
    let msg := (sm.drop p.sig_bytes).take (smlen - p.sig_bytes)
    ∃ junk : Bytes, junk.length = p.sig_bytes ∧
    f.signOpen P m l0 sm smlen (k.pk oid) = some
      { ret := if (suiteOf p H).verifyRoot k.root k.pubSeed msg sig = k.root then 0 else -1
        m := (if (suiteOf p H).verifyRoot k.root k.pubSeed msg sig = k.root then msg
          else List.replicate (smlen - p.sig_bytes) 0) ++ (junk ++ msg).drop (smlen - p.sig_bytes) ++ m.drop smlen
        mlen := if (suiteOf p H).verifyRoot k.root k.pubSeed msg sig = k.root then smlen - p.sig_bytes else 0 } := by
  intro sig msg
  obtain ⟨g, hskb, ho, _⟩ := Family.facts (P := P) hp
  have hHl := Family.hash_length hp hH
  have hml : msg.length = smlen - p.sig_bytes := by simp [msg]; omega
  have hmeq : p.sig_bytes + msg.length = smlen := by omega
  obtain ⟨mbuf, hb, _, hc⟩ := coreSignOpen_eq g hHl k.root k.pubSeed [] sig msg (sm.drop smlen) (m.take smlen) (m.drop smlen)
    hr hps (by simp [sig]; omega) (by omega) (by simp; omega)
  refine ⟨mbuf, hb, ?_⟩
  have e1 : sig ++ msg ++ sm.drop smlen = sm := by
    have := split3 sm p.sig_bytes (smlen - p.sig_bytes)
    rw [Nat.add_sub_cancel' h1] at this
    exact this.symm
  rw [e1, List.take_append_drop, hmeq, List.append_nil] at hc
  have t1 : ∀ x : Bytes, (Rfc.toByte oid 4 ++ x).drop oidLen = x := fun x => List.drop_left' (toByte_length _ _)
  rw [Family.signOpen_eq, apiOpen, Key.pk, readOid_toByte (by omega)]
  simp only [Option.bind_eq_bind, Option.bind_some, hp, hH, t1, hc]
  by_cases c : (suiteOf p H).verifyRoot k.root k.pubSeed msg sig = k.root
  · simp only [if_pos c, hml]
  · simp only [if_neg c, hml]

/-- **C21 (necessity).**  When `smlen` is smaller than a signature, open always leaves its buffers: the property as
stated (every `smlen`) is false of the code. -/
theorem C21_fails_for_short_input (hp : f.parse oid = some p) (k : Key) (sm m : Bytes) (l0 smlen : Nat)
    (h : smlen < p.sig_bytes) (hsm : sm.length < 2 ^ 64) :
    f.signOpen P m l0 sm smlen (k.pk oid) = none := by
  obtain ⟨g, hskb, ho, _⟩ := Family.facts (P := P) hp
  have hsb := g.sig_lt
  have t1 : ∀ x : Bytes, (Rfc.toByte oid 4 ++ x).drop oidLen = x := fun x => List.drop_left' (toByte_length _ _)
  rw [Family.signOpen_eq, apiOpen, Key.pk, readOid_toByte (by omega)]
  simp only [Option.bind_eq_bind, Option.bind_some, hp, t1]
  have key : ∀ a b : Nat, a < 2 ^ 32 → b < a → a + ((b + 2 ^ 64 - a) % 2 ^ 64) = b + 2 ^ 64 := by
    intro a b h1 h2
    rw [Nat.mod_eq_of_lt (by omega)]; omega
  have hrd : rd sm p.sig_bytes ((smlen + 2 ^ 64 - p.sig_bytes) % 2 ^ 64) = none := by
    apply rd_none
    rw [key _ _ hsb h]
    omega
  cases hc : coreHash P p.func p.n with
  | none => simp only [Option.bind_none]
  | some H =>
    simp only [Option.bind_some, coreSignOpen, Option.bind_eq_bind, hrd, Option.bind_none]
    cases rd (k.root ++ k.pubSeed) 0 p.n with
    | none => simp only [Option.bind_none]
    | some a =>
    cases rd (k.root ++ k.pubSeed) p.n p.n with
    | none => simp only [Option.bind_some, Option.bind_none]
    | some b =>
    cases rd sm 0 p.index_bytes with
    | none => simp only [Option.bind_some, Option.bind_none]
    | some c =>
    simp only [Option.bind_some]
    cases bytesToUll c with
    | none => simp only [Option.bind_none]
    | some d => simp only [Option.bind_some]

/-- **C21.**  Open on a public key with an accepted OID is memory safe for every input `sm` of `smlen` bytes with an
output buffer of `smlen` bytes **iff** `smlen` is at least the signature length.  (The full property asks for every
`smlen`; see `C21_fails_for_short_input`.)  What lies behind `smlen` bytes in the output buffer is unchanged. -/
theorem C21_open_safe_partial (hp : f.parse oid = some p) (k : Key) (hr : k.root.length = p.n)
    (hps : k.pubSeed.length = p.n) (sm m : Bytes) (l0 smlen : Nat) (hsm : smlen = sm.length) (h64 : smlen < 2 ^ 64)
    (hm : smlen ≤ m.length) :
    ((f.signOpen P m l0 sm smlen (k.pk oid)).isSome ↔ p.sig_bytes ≤ smlen) ∧
    ∀ o, f.signOpen P m l0 sm smlen (k.pk oid) = some o → o.m.length = m.length ∧ o.m.drop smlen = m.drop smlen := by
  obtain ⟨g, hskb, ho, H, hH⟩ := Family.facts (P := P) hp
  by_cases h1 : p.sig_bytes ≤ smlen
  · obtain ⟨junk, hj, hc⟩ := open_call hp hH k hr hps sm m l0 smlen h1 h64 hsm.le hm
    rw [hc]
    refine ⟨by simp [h1], ?_⟩
    intro o ho
    simp only [Option.some.injEq] at ho
    subst ho
    have hl : ∀ c : Prop, [Decidable c] → ((if c then (sm.drop p.sig_bytes).take (smlen - p.sig_bytes)
        else List.replicate (smlen - p.sig_bytes) (0 : UInt8)) ++
        (junk ++ (sm.drop p.sig_bytes).take (smlen - p.sig_bytes)).drop (smlen - p.sig_bytes)).length = smlen := by
      intro c _
      split <;> simp <;> omega
    constructor
    · simp only []
      rw [List.length_append, hl, List.length_drop]; omega
    · simp only []
      rw [List.drop_left' (hl _)]
  · rw [C21_fails_for_short_input hp k sm m l0 smlen (by omega) (by omega)]
    refine ⟨by simp [h1], ?_⟩
    intro o ho; cases ho

-- Non-vacuity: XMSS-SHA2_10_256 (signatures of 2500 bytes), 2499 bytes of input.
example (P : Prims) (k : Key) (m sm : Bytes) (h : sm.length = 2499) :
    Family.signOpen P .xmss m 0 sm 2499 (k.pk 1) = none := by
  have hp : Family.xmss.parse 1 = some (params16 slowSkBytes .sha2 32 32 10 1 0) := rfl
  refine C21_fails_for_short_input hp k sm m 0 2499 ?_ (by omega)
  have : (params16 slowSkBytes .sha2 32 32 10 1 0).sig_bytes = 2500 := by decide
  omega

/-- **C23 (verification).**  Open accepts exactly when the RFC 8391 verification algorithm accepts. -/
theorem C23_open_is_rfc (hp : f.parse oid = some p) (hH : coreHash P p.func p.n = some H) (k : Key)
    (hr : k.root.length = p.n) (hps : k.pubSeed.length = p.n) (sig msg m : Bytes) (l0 : Nat)
    (hs : sig.length = p.sig_bytes) (h64 : p.sig_bytes + msg.length < 2 ^ 64) (hm : p.sig_bytes + msg.length ≤ m.length) :
    ∃ o, f.signOpen P m l0 (sig ++ msg) (p.sig_bytes + msg.length) (k.pk oid) = some o ∧
      (o.ret = 0 ∨ o.ret = -1) ∧
      (o.ret = 0 ↔ (suiteOf p H).verify k.root k.pubSeed msg sig) := by
  obtain ⟨junk, hj, hc⟩ := open_call hp hH k hr hps (sig ++ msg) m l0 (p.sig_bytes + msg.length) (by omega) h64
    (by simp [hs]) hm
  have e : ((sig ++ msg).drop p.sig_bytes).take (p.sig_bytes + msg.length - p.sig_bytes) = msg := by
    rw [List.drop_left' hs, Nat.add_sub_cancel_left, List.take_length]
  rw [e, List.take_left' hs] at hc
  refine ⟨_, hc, ?_, ?_⟩
  · simp only []; split <;> simp
  · simp only [Rfc.Suite.verify]; split <;> simp [*]

/-- **C24.**  When open returns 0 the output is exactly the message part of the input, with its length; when it returns
-1 the length is 0 and the first `smlen - sig_bytes` bytes of the output are zero; there is no other outcome. -/
theorem C24_open_output (hp : f.parse oid = some p) (k : Key)
    (hr : k.root.length = p.n) (hps : k.pubSeed.length = p.n) (sig msg m : Bytes) (l0 : Nat)
    (hs : sig.length = p.sig_bytes) (h64 : p.sig_bytes + msg.length < 2 ^ 64) (hm : p.sig_bytes + msg.length ≤ m.length) :
    ∃ o, f.signOpen P m l0 (sig ++ msg) (p.sig_bytes + msg.length) (k.pk oid) = some o ∧
      ((o.ret = 0 ∧ o.mlen = msg.length ∧ o.m.take msg.length = msg) ∨
       (o.ret = -1 ∧ o.mlen = 0 ∧ o.m.take msg.length = List.replicate msg.length 0)) := by
  obtain ⟨_, _, _, H, hH⟩ := Family.facts (P := P) hp
  obtain ⟨junk, hj, hc⟩ := open_call hp hH k hr hps (sig ++ msg) m l0 (p.sig_bytes + msg.length) (by omega) h64
    (by simp [hs]) hm
  have e : ((sig ++ msg).drop p.sig_bytes).take (p.sig_bytes + msg.length - p.sig_bytes) = msg := by
    rw [List.drop_left' hs, Nat.add_sub_cancel_left, List.take_length]
  rw [e, List.take_left' hs, Nat.add_sub_cancel_left] at hc
  refine ⟨_, hc, ?_⟩
  by_cases c : (suiteOf p H).verifyRoot k.root k.pubSeed msg sig = k.root
  · left
    simp only [if_pos c, List.append_assoc]
    exact ⟨trivial, trivial, List.take_left' rfl⟩
  · right
    simp only [if_neg c, List.append_assoc]
    exact ⟨trivial, trivial, List.take_left' (by simp)⟩

/-- **C25 (refuted).**  After every rejection of an input whose message is not longer than the signature, the whole
unauthenticated message is still in the caller's buffer, `sig_bytes` bytes from its start.  (For longer messages the
last `sig_bytes` bytes of the message remain.) -/
theorem C25_rejected_message_remains (hp : f.parse oid = some p) (k : Key)
    (hr : k.root.length = p.n) (hps : k.pubSeed.length = p.n) (sig msg m : Bytes) (l0 : Nat) (o : OpenOut)
    (hs : sig.length = p.sig_bytes) (h64 : p.sig_bytes + msg.length < 2 ^ 64) (hm : p.sig_bytes + msg.length ≤ m.length)
    (ho : f.signOpen P m l0 (sig ++ msg) (p.sig_bytes + msg.length) (k.pk oid) = some o) (_hrej : o.ret = -1) :
    (msg.length ≤ p.sig_bytes → (o.m.drop p.sig_bytes).take msg.length = msg) ∧
    (p.sig_bytes ≤ msg.length → (o.m.drop msg.length).take p.sig_bytes = msg.drop (msg.length - p.sig_bytes)) := by
  obtain ⟨_, _, _, H, hH⟩ := Family.facts (P := P) hp
  obtain ⟨junk, hj, hc⟩ := open_call hp hH k hr hps (sig ++ msg) m l0 (p.sig_bytes + msg.length) (by omega) h64
    (by simp [hs]) hm
  have e : ((sig ++ msg).drop p.sig_bytes).take (p.sig_bytes + msg.length - p.sig_bytes) = msg := by
    rw [List.drop_left' hs, Nat.add_sub_cancel_left, List.take_length]
  rw [e, List.take_left' hs, Nat.add_sub_cancel_left] at hc
  rw [hc] at ho
  simp only [Option.some.injEq] at ho
  subst ho
  have key : ∀ a : Bytes, a.length = msg.length →
      (msg.length ≤ p.sig_bytes → ((a ++ (junk ++ msg).drop msg.length ++ m.drop (p.sig_bytes + msg.length)).drop
        p.sig_bytes).take msg.length = msg) ∧
      (p.sig_bytes ≤ msg.length → ((a ++ (junk ++ msg).drop msg.length ++ m.drop (p.sig_bytes + msg.length)).drop
        msg.length).take p.sig_bytes = msg.drop (msg.length - p.sig_bytes)) := by
    intro a ha
    constructor
    · intro hle
      have e1 : (junk ++ msg).drop msg.length = junk.drop msg.length ++ msg := by
        rw [List.drop_append, show msg.length - junk.length = 0 by omega, List.drop_zero]
      rw [e1, ← List.append_assoc, List.append_assoc, List.drop_left' (by simp; omega), List.take_left' rfl]
    · intro hle
      rw [List.append_assoc, List.drop_left' ha, List.drop_append, List.drop_of_length_le (by omega), hj, List.nil_append,
        List.take_left' (by simp; omega)]
  by_cases c : (suiteOf p H).verifyRoot k.root k.pubSeed msg sig = k.root
  · simp only [if_pos c]; exact key msg rfl
  · simp only [if_neg c]; exact key _ (by simp)

end Xmss
