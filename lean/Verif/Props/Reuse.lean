import Verif.Props.History
import Verif.Props.Binding
import Verif.Props.Wots
/-
C63: what it costs to sign two messages with the same index (a restored backup of the secret key, two processes with a
copy of it, a run killed before the key was written back).  Whoever sees the two signatures and knows the public key can
write down signatures on other messages.
-/
namespace Xmss

variable {P : Prims} {f : Family} {oid : Nat} {p : Params} {H : Bytes → Bytes}

namespace Reuse

/-- Fields of a signature: index, randomiser, and the value of chain `j` in the WOTS signature of layer 0. -/
def index (S : Rfc.Suite) (sig : Bytes) : Nat := Rfc.toNat (sig.take S.idxLen)
def randomiser (S : Rfc.Suite) (sig : Bytes) : Bytes := (sig.drop S.idxLen).take S.n
def chainValue (S : Rfc.Suite) (sig : Bytes) (j : Nat) : Bytes := (sig.drop (S.idxLen + S.n + j * S.n)).take S.n

/-- Digit `j` of the digest of the message `m` for the randomiser `r` and the index `idx`. -/
def digit (S : Rfc.Suite) (root r : Bytes) (idx : Nat) (m : Bytes) (j : Nat) : Nat :=
  (S.wotsDigits (S.digest r root idx m)).getD j 0

/-- The attacker.  It is given the public key, the two signatures with their messages, a randomiser `r` of its own choice
and the message `m` to be forged.  On every chain it starts from the signature that lies further back, and hashes
forward; everything else is copied from the first signature. -/
def forge (S : Rfc.Suite) (root pubSeed sig1 m1 sig2 m2 r m : Bytes) : Bytes :=
  let idx := index S sig1
  let value := fun j =>
    let a := digit S root (randomiser S sig1) idx m1 j
    let b := digit S root (randomiser S sig2) idx m2 j
    let t := digit S root r idx m j
    let adrs := Rfc.Suite.otsAdrs 0 (idx / 2 ^ S.hp) (idx % 2 ^ S.hp) j
    if a ≤ b then S.chain pubSeed adrs (chainValue S sig1 j) a (t - a)
    else S.chain pubSeed adrs (chainValue S sig2 j) b (t - b)
  sig1.take S.idxLen ++ r ++ ((List.range S.len).map value).flatten ++ sig1.drop (S.idxLen + S.n + S.len * S.n)

/-! ### Proof -/

theorem sign_fields (g : p.Good) (hH : ∀ x, (H x).length = p.n) (k : Key) (idx : Nat) (hidx : idx < 256 ^ p.index_bytes)
    (m : Bytes) :
    let S := suiteOf p H
    let sig := S.sign k.skSeed k.skPrf k.root k.pubSeed idx m
    sig.take S.idxLen = Rfc.toByte idx S.idxLen ∧ index S sig = idx ∧ randomiser S sig = S.PRF k.skPrf (Rfc.toByte idx 32) ∧
    ∀ j < S.len, chainValue S sig j = S.chain k.pubSeed (Rfc.Suite.otsAdrs 0 (idx / 2 ^ S.hp) (idx % 2 ^ S.hp) j)
      (S.wotsSk k.skSeed k.pubSeed 0 (idx / 2 ^ S.hp) (idx % 2 ^ S.hp) j) 0
      (digit S k.root (S.PRF k.skPrf (Rfc.toByte idx 32)) idx m j) := by
  intro S sig
  have l1 : (Rfc.toByte idx S.idxLen).length = S.idxLen := toByte_length _ _
  have l2 : (S.PRF k.skPrf (Rfc.toByte idx 32)).length = S.n := hH _
  have ht : sig.take S.idxLen = Rfc.toByte idx S.idxLen := by
    simp only [sig, Rfc.Suite.sign, List.append_assoc]; exact List.take_left' l1
  refine ⟨ht, ?_, ?_, ?_⟩
  · rw [index, ht, toNat_toByte, Nat.mod_eq_of_lt]; exact hidx
  · simp only [randomiser, sig, Rfc.Suite.sign, List.append_assoc]
    rw [List.drop_left' l1, List.take_left' l2]
  · intro j hj
    have hd : S.d = (p.d - 1) + 1 := by have := g.d_pos; show p.d = _; omega
    set M := S.digest (S.PRF k.skPrf (Rfc.toByte idx 32)) k.root idx m
    set W := S.wotsSig k.skSeed k.pubSeed M 0 (idx / 2 ^ S.hp) (idx % 2 ^ S.hp) with hW
    obtain ⟨rest, hr⟩ : ∃ rest, sig = Rfc.toByte idx S.idxLen ++ (S.PRF k.skPrf (Rfc.toByte idx 32) ++ (W.flatten ++ rest)) := by
      simp only [sig, Rfc.Suite.sign]
      rw [hd, Rfc.Suite.signLayers]
      exact ⟨_, by simp only [List.append_assoc]; rfl⟩
    have hb := blocks_flatten S.n W rest (wotsSig_mem_len S hH _ _ _ _ _ _)
    have hWl : W.length = S.len := by simp [hW, Rfc.Suite.wotsSig]
    have e : chainValue S sig j = (Rfc.blocks S.n W.length (W.flatten ++ rest)).getD j [] := by
      rw [chainValue, hr, ← List.drop_drop, ← List.drop_drop, List.drop_left' l1, List.drop_left' l2]
      simp [Rfc.blocks, List.getD_eq_getElem?_getD, hWl, hj]
    rw [e, hb]
    simp [hW, Rfc.Suite.wotsSig, List.getD_eq_getElem?_getD, hj, digit, M]

end Reuse
open Reuse

theorem reuse_verify (g : p.Good) (hH : ∀ x, (H x).length = p.n) (k : Key) (hh : k.Honest (suiteOf p H)) (idx : Nat)
    (hidx : idx < 2 ^ p.full_height) (m1 m2 r m : Bytes) (hr : r.length = p.n)
    (hdom : ∀ j < (suiteOf p H).len,
      min (digit (suiteOf p H) k.root ((suiteOf p H).PRF k.skPrf (Rfc.toByte idx 32)) idx m1 j)
        (digit (suiteOf p H) k.root ((suiteOf p H).PRF k.skPrf (Rfc.toByte idx 32)) idx m2 j) ≤
      digit (suiteOf p H) k.root r idx m j) :
    let S := suiteOf p H
    let sig := S.sign k.skSeed k.skPrf k.root k.pubSeed idx
    let forged := forge S k.root k.pubSeed (sig m1) m1 (sig m2) m2 r m
    forged.length = p.sig_bytes ∧ S.verify k.root k.pubSeed m forged := by
  intro S sig forged
  have hib : idx < 256 ^ p.index_bytes := by have := g.idx_fits; omega
  obtain ⟨a1, a2, a3, a4⟩ := sign_fields g hH k idx hib m1
  obtain ⟨b1, b2, b3, b4⟩ := sign_fields g hH k idx hib m2
  have l1 : (Rfc.toByte idx S.idxLen).length = S.idxLen := toByte_length _ _
  have hw : 0 < S.w := g.w_pos
  have hd : S.d = (p.d - 1) + 1 := by have := g.d_pos; show p.d = _; omega
  set t := idx / 2 ^ S.hp with ht
  set l := idx % 2 ^ S.hp with hl
  set R := S.PRF k.skPrf (Rfc.toByte idx 32) with hR
  have l2 : R.length = S.n := hH _
  set M1 := S.digest R k.root idx m1 with hM1
  set W1 := S.wotsSig k.skSeed k.pubSeed M1 0 t l with hW1
  -- the forged WOTS signature is the honest one on the digest of `m`
  set M := S.digest r k.root idx m with hM
  set W := S.wotsSig k.skSeed k.pubSeed M 0 t l with hW
  obtain ⟨rest, hrest⟩ : ∃ rest, rest = (S.authPath k.skSeed k.pubSeed 0 t l).flatten ++
      S.signLayers k.skSeed k.pubSeed (p.d - 1) 1 t (S.treeRoot k.skSeed k.pubSeed 0 t) := ⟨_, rfl⟩
  have hsig1 : sig m1 = Rfc.toByte idx S.idxLen ++ (R ++ (W1.flatten ++ rest)) := by
    simp only [sig, Rfc.Suite.sign]
    rw [hd, Rfc.Suite.signLayers, hrest]
    simp only [List.append_assoc]
    rfl
  have lW1 : W1.flatten.length = S.len * S.n := by rw [wotsSig_flat_length g hH, g.len_eq']; rfl
  have lW : W.flatten.length = S.len * S.n := by rw [wotsSig_flat_length g hH, g.len_eq']; rfl
  have hforged : forged = Rfc.toByte idx S.idxLen ++ (r ++ (W.flatten ++ rest)) := by
    simp only [forged, forge]
    rw [a1, a2, a3, b3]
    have hdrop : (sig m1).drop (S.idxLen + S.n + S.len * S.n) = rest := by
      rw [hsig1, ← List.drop_drop, ← List.drop_drop, List.drop_left' l1, List.drop_left' l2, List.drop_left' lW1]
    rw [hdrop]
    simp only [List.append_assoc]
    congr 3
    rw [hW, Rfc.Suite.wotsSig]
    congr 1
    apply List.map_congr_left
    intro j hj
    have hj := List.mem_range.mp hj
    have hm := hdom j hj
    have key : ∀ a, a ≤ digit S k.root r idx m j →
        S.chain k.pubSeed (Rfc.Suite.otsAdrs 0 t l j) (S.chain k.pubSeed (Rfc.Suite.otsAdrs 0 t l j)
          (S.wotsSk k.skSeed k.pubSeed 0 t l j) 0 a) a (digit S k.root r idx m j - a) =
        S.chain k.pubSeed (Rfc.Suite.otsAdrs 0 t l j) (S.wotsSk k.skSeed k.pubSeed 0 t l j) 0
          ((S.wotsDigits M).getD j 0) := by
      intro a ha
      have e := chain_add S k.pubSeed (Rfc.Suite.otsAdrs 0 t l j) (S.wotsSk k.skSeed k.pubSeed 0 t l j) 0 a
        (digit S k.root r idx m j - a)
      rw [Nat.zero_add] at e
      rw [← e]
      congr 1
      show _ = digit S k.root r idx m j
      omega
    show (if _ then _ else _) = _
    split
    · rename_i hab
      rw [a4 j hj]
      exact key _ (by rw [Nat.min_eq_left hab] at hm; exact hm)
    · rename_i hab
      rw [b4 j hj]
      exact key _ (by rw [Nat.min_eq_right (Nat.le_of_lt (Nat.lt_of_not_le hab))] at hm; exact hm)
  have hbody : W.flatten ++ rest = S.signLayers k.skSeed k.pubSeed S.d 0 idx M := by
    rw [hd, Rfc.Suite.signLayers, hrest]
    simp only [List.append_assoc]
    rfl
  constructor
  · have h1 := sign_length g hH k.skSeed k.skPrf k.root k.pubSeed idx m1
    change (sig m1).length = _ at h1
    have hr' : r.length = S.n := hr
    rw [hsig1] at h1
    rw [hforged]
    simp only [List.length_append] at h1 ⊢
    omega
  · have hr' : r.length = S.n := hr
    rw [Rfc.Suite.verify, hforged, Rfc.Suite.verifyRoot]
    rw [List.take_left' l1, List.drop_left' l1, List.take_left' hr', ← List.drop_drop, List.drop_left' l1,
      List.drop_left' hr', toNat_toByte, Nat.mod_eq_of_lt (show idx < 256 ^ S.idxLen from hib), hbody]
    have h := verifyLayers_signLayers g hH k.skSeed k.pubSeed (p.d - 1) 0 idx M []
    rw [Nat.sub_add_cancel g.d_pos, List.append_nil, Nat.zero_add, g.height, Nat.div_eq_of_lt hidx] at h
    exact h.trans hh.symm

/-! ### C63 -/

/-- **C63.**  A key pair is generated and `cs` is signed; then the key signs `c1.msg`, and (with a copy of the key bytes
made before that) also `c2.msg`.  From these two signatures and the public key alone, `forge` computes, for every message
`m` and every randomiser `r` such that no digit of the digest of `m` lies below both digits of the signed digests, a
signature that open accepts for `m`. -/
theorem C63_reuse_forges (hp : f.parse oid = some p) (hH : coreHash P p.func p.n = some H) (pk0 sk0 : Bytes)
    (hpk : pk0.length = 4 + p.pk_bytes) (hsk : sk0.length = 4 + p.sk_bytes) (seed : Nat → Bytes)
    (hs : (seed p.n).length = 3 * p.n) :
    let S := suiteOf p H
    ∃ pk sk, f.keypair P pk0 sk0 oid seed = some (0, pk, sk) ∧
      let root := (pk.drop 4).take p.n
      let pubSeed := pk.drop (4 + p.n)
      ∀ cs c1 c2, Sized p (cs ++ [c1]) → Sized p (cs ++ [c2]) → cs.length < 2 ^ p.full_height - 1 →
      ∃ outs o1 o2, signAll P f sk (cs ++ [c1]) = some (outs ++ [o1]) ∧ signAll P f sk (cs ++ [c2]) = some (outs ++ [o2]) ∧
        let sig1 := o1.sm.take p.sig_bytes
        let sig2 := o2.sm.take p.sig_bytes
        o1.ret = 0 ∧ o2.ret = 0 ∧ index S sig1 = cs.length ∧ index S sig2 = cs.length ∧
        ∀ r m : Bytes, r.length = p.n → p.sig_bytes + m.length < 2 ^ 64 →
          (∀ j < S.len, digit S root (randomiser S sig1) cs.length c1.msg j ≤ digit S root r cs.length m j ∨
            digit S root (randomiser S sig2) cs.length c2.msg j ≤ digit S root r cs.length m j) →
          ∀ (mbuf : Bytes) (l0 : Nat), p.sig_bytes + m.length ≤ mbuf.length →
            ∃ v, f.signOpen P mbuf l0 (forge S root pubSeed sig1 c1.msg sig2 c2.msg r m ++ m) (p.sig_bytes + m.length) pk =
              some v ∧ v.ret = 0 ∧ v.mlen = m.length ∧ v.m.take v.mlen = m := by
  intro S
  obtain ⟨g, hskb, ho, _⟩ := Family.facts (P := P) hp
  have hHl := Family.hash_length hp hH
  obtain ⟨k, hv, hh, _, hk⟩ := keypair_key hp hH pk0 sk0 hpk hsk seed hs
  refine ⟨_, _, hk, ?_⟩
  have eroot : ((k.pk oid).drop 4).take p.n = k.root := by
    rw [Key.pk, List.drop_left' (toByte_length _ _), List.take_left' hv.root]
  have eseed : (k.pk oid).drop (4 + p.n) = k.pubSeed := by
    rw [Key.pk, ← List.drop_drop, List.drop_left' (toByte_length _ _), List.drop_left' hv.root]
  simp only [eroot, eseed]
  intro cs c1 c2 h1 h2 hlen
  have hi := g.idx_fits
  have e : ∀ c, Sized p (cs ++ [c]) → signAll P f (k.sk p oid 0) (cs ++ [c]) =
      some ((cs.mapIdx fun j c => outcome p H oid (stateAfter p (0, k) j) c) ++ [outcome p H oid (cs.length, k) c]) := by
    intro c hc
    rw [signAll_eq hp hH _ 0 k hv (by positivity) hc, List.mapIdx_append]
    simp [stateAfter_lt _ (Nat.le_of_lt hlen)]
  refine ⟨_, _, _, e c1 h1, e c2 h2, ?_⟩
  have esig : ∀ c, (outcome p H oid (cs.length, k) c).sm.take p.sig_bytes =
      S.sign k.skSeed k.skPrf k.root k.pubSeed cs.length c.msg := by
    intro c
    simp only [outcome, if_pos hlen]
    exact List.take_left' (sign_length g hHl _ _ _ _ _ _)
  simp only [esig]
  have hib : cs.length < 256 ^ p.index_bytes := by omega
  obtain ⟨a1, a2, a3, a4⟩ := sign_fields g hHl k cs.length hib c1.msg
  obtain ⟨b1, b2, b3, b4⟩ := sign_fields g hHl k cs.length hib c2.msg
  have er : ∀ c, (outcome p H oid (cs.length, k) c).ret = 0 := by
    intro c
    simp only [outcome, if_pos (show cs.length < 2 ^ p.full_height by omega)]
  refine ⟨er c1, er c2, a2, b2, ?_⟩
  intro r m hr h64 hdom mbuf l0 hmb
  rw [a3, b3] at hdom
  obtain ⟨f1, f2⟩ := reuse_verify g hHl k hh cs.length (by omega) c1.msg c2.msg r m hr
    (fun j hj => (min_le_iff).mpr (hdom j hj))
  obtain ⟨v, v1, v2, v3⟩ := C23_open_is_rfc hp hH k hv.root hv.pubSeed _ m mbuf l0 f1 h64 hmb
  obtain ⟨v', w1, w2⟩ := C24_open_output (P := P) hp k hv.root hv.pubSeed _ m mbuf l0 f1 h64 hmb
  rw [v1] at w1
  cases w1
  have hret := v3.mpr f2
  refine ⟨v, v1, hret, ?_⟩
  rcases w2 with ⟨_, h5, h6⟩ | ⟨h5, _⟩
  · exact ⟨h5, by rw [h5]; exact h6⟩
  · rw [hret] at h5; cases h5

/-- **C63 (one signature is safe).**  With one signature only (both signed messages the same) the condition of
`C63_reuse_forges` holds for no digest but the signed one. -/
theorem C63_single_use_safe (g : p.Good) (hH : ∀ x, (H x).length = p.n) (root r r1 : Bytes) (idx : Nat) (m m1 : Bytes)
    (hdom : ∀ j < (suiteOf p H).len, digit (suiteOf p H) root r1 idx m1 j ≤ digit (suiteOf p H) root r idx m j) :
    (suiteOf p H).digest r root idx m = (suiteOf p H).digest r1 root idx m1 := by
  by_contra hne
  have l1 : ((suiteOf p H).digest r root idx m).length = p.n := hH _
  have l2 : ((suiteOf p H).digest r1 root idx m1).length = p.n := hH _
  obtain ⟨j, hj, hlt⟩ := C07_checksum_partial p g _ _ l2 l1 (fun h => hne h.symm)
  rw [chainLengths_eq g H l1, chainLengths_eq g H l2] at hlt
  have := hdom j (by rw [g.len_eq' H]; exact hj)
  simp only [digit] at this
  omega

namespace Reuse

/-- A hash function for an example: the last 32 bytes of the input. -/
def lastBytes (x : Bytes) : Bytes := ((x.drop (x.length - 32)) ++ List.replicate 32 0).take 32

def lastPrims : Prims where
  sha256 := lastBytes
  sha512 := fun _ => List.replicate 64 0
  sha256_length := fun x => by simp only [lastBytes, List.length_take, List.length_append, List.length_replicate]; omega
  sha512_length := fun _ => by simp

theorem lastBytes_append (a m : Bytes) (hm : m.length = 32) : lastBytes (a ++ m) = m := by
  rw [lastBytes, List.drop_left' (by simp [hm]), List.take_left' hm]

/-- XMSS-SHA2_10_256 -/
abbrev q : Params := params16 slowSkBytes .sha2 32 32 10 1 0

theorem digit_of_last (root r : Bytes) (idx : Nat) (m : Bytes) (hm : m.length = 32) (j : Nat) :
    digit (suiteOf q lastBytes) root r idx m j = ((suiteOf q lastBytes).wotsDigits m).getD j 0 := by
  rw [digit, Rfc.Suite.digest, Rfc.Suite.Hmsg]
  show ((suiteOf q lastBytes).wotsDigits (lastBytes _)).getD j 0 = _
  rw [lastBytes_append _ _ hm]

end Reuse

/-- Non-vacuity of C63, and how bad it can be: with XMSS-SHA2_10_256 and the hash function `lastBytes`, the two messages
of 32 zero bytes and of 32 bytes 0xFF signed with the same index give every message away. -/
theorem C63_can_give_everything (pk0 sk0 sm1 sm2 : Bytes) (hpk : pk0.length = 4 + q.pk_bytes)
    (hsk : sk0.length = 4 + q.sk_bytes) (seed : Nat → Bytes) (hs : (seed 32).length = 96)
    (h1 : sm1.length = q.sig_bytes + 32) (h2 : sm2.length = q.sig_bytes + 32) :
    let S := suiteOf q lastBytes
    let m1 := List.replicate 32 (0 : UInt8)
    let m2 := List.replicate 32 (255 : UInt8)
    ∃ pk sk o1 o2, xmssKeypair lastPrims pk0 sk0 1 seed = some (0, pk, sk) ∧
      xmssSign lastPrims sk sm1 0 m1 = some o1 ∧ xmssSign lastPrims sk sm2 0 m2 = some o2 ∧ o1.ret = 0 ∧ o2.ret = 0 ∧
      ∀ r m mbuf : Bytes, r.length = 32 → q.sig_bytes + m.length < 2 ^ 64 → q.sig_bytes + m.length ≤ mbuf.length →
        ∃ v, xmssSignOpen lastPrims mbuf 0 (forge S ((pk.drop 4).take 32) (pk.drop 36) (o1.sm.take q.sig_bytes) m1
          (o2.sm.take q.sig_bytes) m2 r m ++ m) (q.sig_bytes + m.length) pk = some v ∧ v.ret = 0 ∧ v.m.take v.mlen = m := by
  intro S m1 m2
  have hp : Family.xmss.parse 1 = some q := rfl
  have hH : coreHash lastPrims q.func q.n = some lastBytes := rfl
  obtain ⟨pk, sk, hk, hall⟩ := C63_reuse_forges (f := .xmss) hp hH pk0 sk0 hpk hsk seed hs
  obtain ⟨outs, o1, o2, e1, e2, r1, r2, i1, i2, hforge⟩ := hall [] ⟨sm1, 0, m1⟩ ⟨sm2, 0, m2⟩
    (by intro c hc; simp at hc; subst hc; simpa [m1] using h1) (by intro c hc; simp at hc; subst hc; simpa [m2] using h2)
    (by decide)
  have one : ∀ (c : Call) (o : SignOut), signAll lastPrims .xmss sk ([] ++ [c]) = some (outs ++ [o]) →
      xmssSign lastPrims sk c.sm c.smlen0 c.msg = some o := by
    intro c o h
    rw [List.nil_append, signAll] at h
    cases hc : Family.sign lastPrims .xmss sk c.sm c.smlen0 c.msg with
    | none => simp [hc] at h
    | some x =>
      simp only [hc, signAll, Option.bind_eq_bind, Option.bind_some, Option.some.injEq] at h
      have hl := congrArg List.length h
      simp only [List.length_append, List.length_cons, List.length_nil] at hl
      have : outs = [] := List.length_eq_zero_iff.mp (by omega)
      subst this
      simp at h
      subst h
      exact hc
  have s1 := one _ _ e1
  have s2 := one _ _ e2
  have hz : ∀ j < S.len, (S.wotsDigits m1).getD j 0 = 0 ∨ (S.wotsDigits m2).getD j 0 = 0 := by decide +kernel
  refine ⟨pk, sk, o1, o2, hk, s1, s2, r1, r2, ?_⟩
  intro r m mbuf hr h64 hmb
  obtain ⟨v, v1, v2, v3, v4⟩ := hforge r m hr h64 (by
    intro j hj
    rcases hz j hj with h | h
    · exact Or.inl (Nat.le_trans (Nat.le_of_eq ((digit_of_last _ _ _ m1 (by simp [m1]) j).trans h)) (Nat.zero_le _))
    · exact Or.inr (Nat.le_trans (Nat.le_of_eq ((digit_of_last _ _ _ m2 (by simp [m2]) j).trans h)) (Nat.zero_le _))) mbuf 0 hmb
  exact ⟨v, v1, v2, v4⟩

end Xmss
