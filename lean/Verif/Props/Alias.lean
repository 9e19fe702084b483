import Verif.Model.Alias
import Verif.Props.Open
/-
C64, C65: the message and the signed message may be the same memory, or overlap.
-/
namespace Xmss

variable {P : Prims} {f : Family} {oid : Nat} {p : Params} {H : Bytes → Bytes}

namespace Alias

/-- The `len` bytes at the address `a`. -/
def at_ (mem : Bytes) (a len : Nat) : Bytes := (mem.drop a).take len

/-- The memory with `bs` stored at the address `a`, everything else as it was. -/
def put (mem : Bytes) (a : Nat) (bs : Bytes) : Bytes := mem.take a ++ bs ++ mem.drop (a + bs.length)

theorem at_length {mem : Bytes} {a len : Nat} (h : a + len ≤ mem.length) : (at_ mem a len).length = len := by
  simp [at_]; omega

theorem at_append (x y z : Bytes) {a len : Nat} (ha : a = x.length) (hl : len = y.length) : at_ (x ++ y ++ z) a len = y := by
  subst ha hl; simp [at_]

theorem put_append (x y z bs : Bytes) {a : Nat} (ha : a = x.length) (hl : bs.length = y.length) :
    put (x ++ y ++ z) a bs = x ++ bs ++ z := by
  subst ha; simp [put, hl]

theorem put_self {mem : Bytes} {a len : Nat} (h : a + len ≤ mem.length) : put mem a (at_ mem a len) = mem := by
  rw [put, at_length h, at_]
  exact (split3 mem a len).symm

theorem memcpyIn_self {mem : Bytes} {a len : Nat} (h : a + len ≤ mem.length) : memcpyIn mem a a len = some mem := by
  rw [memcpyIn, if_pos rfl, rd_some h]; rfl

theorem memcpyIn_put {mem : Bytes} {dst src len : Nat} (hd : dst + len ≤ mem.length) (hs : src + len ≤ mem.length)
    (h : dst = src ∨ src + len ≤ dst ∨ dst + len ≤ src) : memcpyIn mem dst src len = some (put mem dst (at_ mem src len)) := by
  by_cases e : dst = src
  · subst e; rw [memcpyIn_self hs, put_self hs]
  · rw [memcpyIn, if_neg e, if_pos (by tauto), rd_some hs]
    simp only [Option.bind_eq_bind, Option.bind_some]
    rw [wr_some (by simp; omega)]
    rfl

theorem memcpyIn_none {mem : Bytes} {dst src len : Nat} (hl : 0 < len) (h : ¬(dst = src ∨ src + len ≤ dst ∨ dst + len ≤ src)) :
    memcpyIn mem dst src len = none := by
  rw [memcpyIn, if_neg (by tauto), if_neg (by tauto), if_neg (by omega)]

theorem put_length {mem bs : Bytes} {a : Nat} (h : a + bs.length ≤ mem.length) : (put mem a bs).length = mem.length := by
  simp [put]; omega

theorem coreSign_congr (sk a b m : Bytes) (h : wr a p.sig_bytes m = wr b p.sig_bytes m) :
    coreSign H p sk a m = coreSign H p sk b m := by
  rw [coreSign, coreSign, h]

end Alias

open Alias

/-- **C64 (signing, simple build).**  The message may lie anywhere that does not overlap the place where sign puts its copy
of it (behind the signature), or be that place itself: sign does exactly what it does on separate buffers, and touches no
byte outside `sm[0 .. sig_bytes + mlen)`.  In particular `m == sm` is fine for `mlen ≤ sig_bytes`.  Any other placement is
undefined behaviour. -/
theorem C64_sign (hp : f.parse oid = some p) (k : Key) (hk : k.Valid p)
    (idx : Nat) (hidx : idx < 256 ^ p.index_bytes) (mem : Bytes) (sm m mlen l0 : Nat)
    (hsm : sm + (p.sig_bytes + mlen) ≤ mem.length) (hm : m + mlen ≤ mem.length) :
    (m = sm + p.sig_bytes ∨ m + mlen ≤ sm + p.sig_bytes ∨ sm + p.sig_bytes + mlen ≤ m →
      ∃ o, f.sign P (k.sk p oid idx) (at_ mem sm (p.sig_bytes + mlen)) l0 (at_ mem m mlen) = some o ∧
        apiSignIn P f.parse (k.sk p oid idx) mem sm l0 m mlen = some { o with sm := put mem sm o.sm }) ∧
    (0 < mlen → ¬(m = sm + p.sig_bytes ∨ m + mlen ≤ sm + p.sig_bytes ∨ sm + p.sig_bytes + mlen ≤ m) →
      apiSignIn P f.parse (k.sk p oid idx) mem sm l0 m mlen = none) := by
  obtain ⟨g, hskb, ho, H, hH⟩ := Family.facts (P := P) hp
  have hHl := Family.hash_length hp hH
  have t1 : ∀ x : Bytes, (Rfc.toByte oid 4 ++ x).drop oidLen = x := fun x => List.drop_left' (toByte_length _ _)
  refine ⟨fun h => ?_, fun h0 h => ?_⟩
  · have hwl : (at_ mem sm (p.sig_bytes + mlen)).length = p.sig_bytes + mlen := at_length hsm
    have hml : (at_ mem m mlen).length = mlen := at_length hm
    have hc := sign_call hp hH k hk idx hidx (at_ mem sm (p.sig_bytes + mlen)) l0 (at_ mem m mlen) (by omega)
    generalize ho' : SignOut.mk _ _ _ _ = o at hc
    have hol : o.sm.length = p.sig_bytes + mlen := by
      have e := g.sig_eq
      rw [← ho']
      simp only [List.length_append, List.length_drop, hwl, hml]
      split
      · rw [sign_length g hHl]; omega
      · split
        · rw [List.length_append, List.length_drop, List.length_replicate, sign_length g hHl]; omega
        · rw [List.length_take, hwl]; omega
    refine ⟨o, hc, ?_⟩
    clear ho'
    -- the simple call
    rw [Family.sign_eq, apiSign, Key.sk, readOid_toByte (by omega)] at hc
    simp only [Option.bind_eq_bind, Option.bind_some, hp, hH, t1] at hc
    rw [apiSignIn, Key.sk, readOid_toByte (by omega)]
    simp only [Option.bind_eq_bind, Option.bind_some, hp, hH, t1]
    rw [coreSignIn, memcpyIn_put (by omega) hm (by omega)]
    simp only [Option.bind_eq_bind, Option.bind_some]
    have hl1 : (put mem (sm + p.sig_bytes) (at_ mem m mlen)).length = mem.length := put_length (by omega)
    -- the memory after line 205
    set msg := at_ mem m mlen with hmsg
    set sg := at_ mem sm p.sig_bytes with hsg
    have hsgl : sg.length = p.sig_bytes := at_length (by omega)
    set old := at_ mem (sm + p.sig_bytes) mlen with hold
    have holdl : old.length = mlen := at_length (by omega)
    set pre := mem.take sm with hpre
    have hprel : pre.length = sm := by simp [hpre]; omega
    set post := mem.drop (sm + (p.sig_bytes + mlen)) with hpost
    have hmem : mem = pre ++ sg ++ old ++ post := by
      have e1 := split3 mem sm p.sig_bytes
      have e2 := split3 (mem.drop (sm + p.sig_bytes)) 0 mlen
      rw [List.take_zero, List.nil_append, List.drop_zero, Nat.zero_add, List.drop_drop] at e2
      conv_lhs => rw [e1, e2]
      rw [hpost, ← Nat.add_assoc]
      simp only [List.append_assoc]
      rfl
    have hwin : at_ mem sm (p.sig_bytes + mlen) = sg ++ old := by
      rw [hmem, List.append_assoc pre]
      exact at_append _ _ _ hprel.symm (by simp [hsgl, holdl])
    have h1 : put mem (sm + p.sig_bytes) msg = pre ++ (sg ++ msg) ++ post := by
      conv_lhs => rw [hmem]
      rw [put_append (pre ++ sg) old post msg (by simp [hprel, hsgl]) (by omega)]
      simp
    rw [h1]
    have r1 : rd (pre ++ (sg ++ msg) ++ post) sm (p.sig_bytes + mlen) = some (sg ++ msg) :=
      rd_append _ _ _ hprel.symm (by simp [hsgl, hml])
    have r2 : rd (pre ++ (sg ++ msg) ++ post) (sm + p.sig_bytes) mlen = some msg := by
      rw [← List.append_assoc]
      exact rd_append _ _ _ (by simp [hprel, hsgl]) hml.symm
    rw [r1]
    simp only [Option.bind_some]
    rw [r2]
    simp only [Option.bind_some]
    have hcg : coreSign H p (Rfc.toByte idx p.index_bytes ++ k.skSeed ++ k.skPrf ++ k.root ++ k.pubSeed) (sg ++ msg) msg =
        coreSign H p (Rfc.toByte idx p.index_bytes ++ k.skSeed ++ k.skPrf ++ k.root ++ k.pubSeed) (sg ++ old) msg := by
      apply coreSign_congr
      have a := wr_append sg msg [] msg (off := p.sig_bytes) hsgl.symm rfl
      have b := wr_append sg old [] msg (off := p.sig_bytes) hsgl.symm (by omega)
      simp only [List.append_nil] at a b
      rw [a, b]
    rw [hcg]
    rw [hwin] at hc
    cases hcs : coreSign H p (Rfc.toByte idx p.index_bytes ++ k.skSeed ++ k.skPrf ++ k.root ++ k.pubSeed) (sg ++ old) msg with
    | none => rw [hcs] at hc; cases hc
    | some o' =>
      rw [hcs] at hc
      simp only [Option.bind_some, Option.some.injEq] at hc ⊢
      subst hc
      have w1 : wr (pre ++ (sg ++ msg) ++ post) sm o'.sm = some (pre ++ o'.sm ++ post) :=
        wr_append _ _ _ _ hprel.symm (by simp only [List.length_append, hsgl, hml]; exact hol)
      rw [w1]
      simp only [Option.bind_some]
      have w2 : put mem sm o'.sm = pre ++ o'.sm ++ post := by
        conv_lhs => rw [hmem, List.append_assoc pre]
        exact put_append _ _ _ _ hprel.symm (by simp only [List.length_append, hsgl, holdl]; exact hol)
      rw [w2]
  · rw [apiSignIn, Key.sk, readOid_toByte (by omega)]
    simp only [Option.bind_eq_bind, Option.bind_some, hp, hH, t1]
    rw [coreSignIn, memcpyIn_none h0 (by omega)]
    rfl

/-- **C65 (signing in place, simple build).**  `m == sm` for a message not longer than a signature: the output is the
ordinary signed message. -/
theorem C65_sign_in_place_partial (hp : f.parse oid = some p) (hH : coreHash P p.func p.n = some H) (k : Key) (hk : k.Valid p)
    (idx : Nat) (hidx : idx < 2 ^ p.full_height - 1) (mem : Bytes) (sm mlen l0 : Nat)
    (hsm : sm + (p.sig_bytes + mlen) ≤ mem.length) (hml : mlen ≤ p.sig_bytes) :
    let msg := at_ mem sm mlen
    apiSignIn P f.parse (k.sk p oid idx) mem sm l0 sm mlen = some
      { ret := 0
        sk := k.sk p oid (idx + 1)
        sm := put mem sm ((suiteOf p H).sign k.skSeed k.skPrf k.root k.pubSeed idx msg ++ msg)
        smlen := p.sig_bytes + mlen } := by
  intro msg
  obtain ⟨g, hskb, ho, _⟩ := Family.facts (P := P) hp
  have hfit := g.idx_fits
  obtain ⟨o, h1, h2⟩ := (C64_sign (P := P) hp k hk idx (by omega) mem sm sm mlen l0 hsm (by omega)).1 (by omega)
  have hmsgl : msg.length = mlen := at_length (by omega)
  have h3 := C23_sign_is_rfc (P := P) hp hH k hk idx hidx (at_ mem sm (p.sig_bytes + mlen)) l0 msg
    (by rw [at_length hsm, hmsgl])
  rw [h1] at h3
  cases h3
  rw [h2, hmsgl]

/-- The hypotheses are met: XMSS-SHA2_10_256, its zero key, index 3, a memory with room for a signature and 16 bytes. -/
example : ∃ p, Family.xmss.parse 1 = some p ∧ (Key.zero p).Valid p ∧ 3 < 2 ^ p.full_height - 1 ∧
    0 + (p.sig_bytes + 16) ≤ (List.replicate 2516 (0 : UInt8)).length ∧ 16 ≤ p.sig_bytes := by
  refine ⟨_, rfl, ⟨by simp [Key.zero], by simp [Key.zero], by simp [Key.zero], by simp [Key.zero]⟩, ?_, ?_, ?_⟩
  · decide +kernel
  · rw [List.length_replicate]; decide +kernel
  · decide +kernel

end Xmss
