import Verif.Proof.Trace
import Verif.Props.Open
import Verif.Props.SecretsPrf
/-
C72 (work: which calls of the hash function the API makes), C73 (the sequence of calls of a signer is determined by what anybody
can compute from the public key and the signature).
-/
namespace Xmss
open Tr

variable {P P' : Prims} {f : Family} {oid : Nat} {p : Params} {H H' : Bytes → Bytes}

namespace Family
/-- keypair with the record of its calls of the hash function -/
def keypairT {κ : Type} [Rec κ] (P : Prims) (f : Family) := apiKeypairT (κ := κ) P f.parse
/-- sign with the record of its calls of the hash function -/
def signT {κ : Type} [Rec κ] (P : Prims) (f : Family) := apiSignT (κ := κ) P f.parse
/-- open with the record of its calls of the hash function -/
def signOpenT {κ : Type} [Rec κ] (P : Prims) (f : Family) := apiOpenT (κ := κ) P f.parse
end Family

/-- The value a recorded computation returns. -/
def valueOf {α : Type} (t : Tr α) : Option α := Option.map Prod.fst t
/-- The lengths of the inputs of the hash calls it makes, in order. -/
def callsOf {α : Type} (t : Tr α) : Option (List Nat) := Option.map Prod.snd t

/-- **C72 (the recorded functions are the functions).**  For all arguments, also where the behaviour is undefined. -/
theorem C72_same (P : Prims) (f : Family) :
    (∀ pk sk oid seed, valueOf (f.keypairT P pk sk oid seed) = f.keypair P pk sk oid seed) ∧
    (∀ sk sm l0 m, valueOf (f.signT P sk sm l0 m) = f.sign P sk sm l0 m) ∧
    (∀ m l0 sm smlen pk, valueOf (f.signOpenT P m l0 sm smlen pk) = f.signOpen P m l0 sm smlen pk) := by
  refine ⟨fun _ _ _ _ => ?_, fun _ _ _ _ => ?_, fun _ _ _ _ _ => ?_⟩
  · rw [Family.keypair_eq]; exact apiKeypairT_val P f.parse _ _ _ _
  · rw [Family.sign_eq]; exact apiSignT_val P f.parse _ _ _ _
  · rw [Family.signOpen_eq]; exact apiOpenT_val P f.parse _ _ _ _ _

/-! ### Counting -/

namespace HashCalls

/-- Number of hash calls for one leaf. -/
def leafCount (p : Params) : Nat := p.wots_len + 3 * (p.wots_len * (p.wots_w - 1)) + 4 * (p.wots_len - 1)
/-- Number of hash calls for one tree with all its leaves and inner nodes. -/
def treeCount (p : Params) : Nat := 2 ^ p.tree_height * leafCount p + 4 * (2 ^ p.tree_height - 1)

theorem leaf_length (p : Params) : (Calls.leaf p).length = leafCount p := by
  simp only [Calls.leaf, List.length_append, rep_length, Calls.gen, Calls.f, Calls.h, Calls.prf, List.length_cons, List.length_nil,
    leafCount]
  omega

theorem tree_length (p : Params) : ∀ k, (Calls.tree p k).length = 2 ^ k * leafCount p + 4 * (2 ^ k - 1)
  | 0 => by simp [Calls.tree, leaf_length]
  | k + 1 => by
    simp only [Calls.tree, List.length_append, tree_length p k, Calls.h, Calls.prf, List.length_cons, List.length_nil]
    have := Nat.two_pow_pos k
    rw [pow_succ, Nat.mul_comm (2 ^ k) 2, Nat.mul_assoc 2]
    omega

theorem sum_le (w : Nat) : ∀ l : List Nat, (∀ x ∈ l, x < w) → l.sum + (l.map fun x => w - 1 - x).sum = l.length * (w - 1)
  | [], _ => by simp
  | x :: l, h => by
    have := sum_le w l (fun y hy => h y (by simp [hy]))
    have hx := h x (by simp)
    simp only [List.sum_cons, List.map_cons, List.length_cons, Nat.add_mul, Nat.one_mul]
    omega

theorem digits_sum (g : p.Good) (M : Bytes) :
    ((suiteOf p H).wotsDigits M).sum + (((suiteOf p H).wotsDigits M).map fun l => (suiteOf p H).w - 1 - l).sum =
      p.wots_len * (p.wots_w - 1) := by
  rw [sum_le (suiteOf p H).w _ (fun x hx => wotsDigits_lt (suiteOf p H) g.w_pos M hx), wotsDigits_length, g.len_eq']
  rfl

theorem signLayer_length (M : Bytes) :
    (Calls.signLayer p (suiteOf p H) M).length = p.wots_len + 3 * ((suiteOf p H).wotsDigits M).sum + treeCount p := by
  simp only [Calls.signLayer, List.length_append, rep_length, tree_length, Calls.gen, Calls.f, Calls.prf, List.length_cons,
    List.length_nil, treeCount]
  omega

theorem verifyLayer_length (M : Bytes) :
    (Calls.verifyLayer p (suiteOf p H) M).length =
      3 * (((suiteOf p H).wotsDigits M).map fun l => (suiteOf p H).w - 1 - l).sum + 4 * (p.wots_len - 1) + 4 * p.tree_height := by
  simp only [Calls.verifyLayer, List.length_append, rep_length, Calls.f, Calls.h, Calls.prf, List.length_cons, List.length_nil]
  omega

theorem flatten_le {α : Type} (F : α → List Nat) (b : Nat) : ∀ l : List α, (∀ x ∈ l, (F x).length ≤ b) →
    (l.map F).flatten.length ≤ l.length * b
  | [], _ => by simp
  | x :: l, h => by
    have := flatten_le F b l (fun y hy => h y (by simp [hy]))
    have hx := h x (by simp)
    simp only [List.map_cons, List.flatten_cons, List.length_append, List.length_cons, Nat.add_mul, Nat.one_mul]
    omega

theorem flatten_eq {α : Type} (F G : α → List Nat) (b : Nat) : ∀ l : List α, (∀ x ∈ l, (F x).length + (G x).length = b) →
    (l.map F).flatten.length + (l.map G).flatten.length = l.length * b
  | [], _ => by simp
  | x :: l, h => by
    have := flatten_eq F G b l (fun y hy => h y (by simp [hy]))
    have hx := h x (by simp)
    simp only [List.map_cons, List.flatten_cons, List.length_append, List.length_cons, Nat.add_mul, Nat.one_mul]
    omega

theorem signDigests_length (S : Rfc.Suite) (sk seed : Bytes) : ∀ (k l idx : Nat) (M : Bytes),
    (signDigests S sk seed k l idx M).length = k
  | 0, _, _, _ => rfl
  | k + 1, l, idx, M => by simp [signDigests, signDigests_length S sk seed k]

theorem layerDigests_length (S : Rfc.Suite) (seed : Bytes) : ∀ (k l idx : Nat) (M sig : Bytes),
    (Calls.layerDigests S seed k l idx M sig).length = k
  | 0, _, _, _, _ => rfl
  | k + 1, l, idx, M, sig => by simp [Calls.layerDigests, layerDigests_length S seed k]

/-- The verifier checks exactly the digests that were signed. -/
theorem layerDigests_signLayers (g : p.Good) (hH : ∀ x, (H x).length = p.n) (sk seed : Bytes) :
    ∀ (k l idx : Nat) (M rest : Bytes),
      Calls.layerDigests (suiteOf p H) seed k l idx M ((suiteOf p H).signLayers sk seed k l idx M ++ rest) =
        signDigests (suiteOf p H) sk seed k l idx M
  | 0, _, _, _, _ => rfl
  | k + 1, l, idx, M, rest => by
    set S := suiteOf p H with hS
    have hhp : S.hp = p.tree_height := g.hp_eq H
    have hlen : S.len = p.wots_len := g.len_eq' H
    have hn : S.n = p.n := rfl
    have hw : 0 < S.w := g.w_pos
    rw [Calls.layerDigests, signDigests, Rfc.Suite.signLayers]
    simp only [List.append_assoc]
    set t := idx / 2 ^ S.hp
    set i := idx % 2 ^ S.hp with hi
    set R := S.signLayers sk seed k (l + 1) t (S.treeRoot sk seed l t) ++ rest with hR
    have f1 : (S.wotsSig sk seed M l t i).flatten.length = S.len * S.n := by rw [wotsSig_flat_length g hH, hlen, hn]
    have f2 : (S.authPath sk seed l t i).flatten.length = S.hp * S.n := by rw [authPath_flat_length g hH, hhp, hn]
    have b1 := blocks_flatten S.n (S.wotsSig sk seed M l t i) ((S.authPath sk seed l t i).flatten ++ R)
      (fun x hx => wotsSig_mem_len S hH _ _ _ _ _ _ x hx)
    have b2 := blocks_flatten S.n (S.authPath sk seed l t i) R (authPath_mem_length g hH _ _ _ _ _)
    rw [show (S.wotsSig sk seed M l t i).length = S.len by simp [Rfc.Suite.wotsSig]] at b1
    rw [show (S.authPath sk seed l t i).length = S.hp by simp [Rfc.Suite.authPath]] at b2
    rw [List.drop_left' f1, b1, b2, rootFromSig_honest S hw _ _ _ _ _ _ (Nat.mod_lt _ (by positivity)), Nat.add_mul,
      ← List.drop_drop, List.drop_left' f1, List.drop_left' f2, hR, layerDigests_signLayers g hH sk seed k]

theorem digests_sign (g : p.Good) (hH : ∀ x, (H x).length = p.n) (skSeed skPrf root seed M : Bytes) (idx : Nat)
    (hidx : idx < 256 ^ p.index_bytes) :
    Calls.digests (suiteOf p H) root seed M ((suiteOf p H).sign skSeed skPrf root seed idx M) =
      signDigests (suiteOf p H) skSeed seed p.d 0 idx
        ((suiteOf p H).digest ((suiteOf p H).PRF skPrf (Rfc.toByte idx 32)) root idx M) := by
  have l1 : (Rfc.toByte idx (suiteOf p H).idxLen).length = (suiteOf p H).idxLen := toByte_length _ _
  have l2 : ((suiteOf p H).PRF skPrf (Rfc.toByte idx 32)).length = (suiteOf p H).n := hH _
  simp only [Calls.digests, Rfc.Suite.sign, List.append_assoc]
  rw [List.take_left' l1, List.drop_left' l1, List.take_left' l2, ← List.drop_drop, List.drop_left' l1,
    List.drop_left' l2, toNat_toByte, Nat.mod_eq_of_lt (show idx < 256 ^ (suiteOf p H).idxLen from hidx)]
  have h := layerDigests_signLayers g hH skSeed seed p.d 0 idx
    ((suiteOf p H).digest ((suiteOf p H).PRF skPrf (Rfc.toByte idx 32)) root idx M) []
  rw [List.append_nil] at h
  exact h

end HashCalls
open HashCalls

/-! ### C72 -/

/-- **C72 (key generation).**  Every key generation of a parameter set makes the same calls: those for one tree. -/
theorem C72_keygen (hp : f.parse oid = some p) (hH : coreHash P p.func p.n = some H) (pk0 sk0 : Bytes)
    (hpk : pk0.length = 4 + p.pk_bytes) (hsk : sk0.length = 4 + p.sk_bytes) (seed : Nat → Bytes) (hs : (seed p.n).length = 3 * p.n) :
    callsOf (f.keypairT P pk0 sk0 oid seed) = some (Calls.keygen p) ∧ (Calls.keygen p).length = treeCount p := by
  obtain ⟨g, hskb, _, _⟩ := Family.facts (P := P) hp
  have hHl := Family.hash_length hp hH
  refine ⟨?_, tree_length p _⟩
  have w1 : wr pk0 0 (oidBytes oid) = some (Rfc.toByte oid 4 ++ pk0.drop 4) := by
    rw [oidBytes_eq, wr_some (by rw [toByte_length]; omega), toByte_length]; simp
  have w2 : wr sk0 0 (oidBytes oid) = some (Rfc.toByte oid 4 ++ sk0.drop 4) := by
    rw [oidBytes_eq, wr_some (by rw [toByte_length]; omega), toByte_length]; simp
  have hk := coreSeedKeypairT_eq g hHl (pk0.drop 4) (sk0.drop 4) ((seed p.n).take p.n) (((seed p.n).drop p.n).take p.n)
    ((seed p.n).drop (p.n + p.n)) [] [] []
    (by rw [List.length_drop, hpk, g.pk_eq]; omega) (by rw [List.length_drop, hsk, hskb]; omega)
    (by simp; omega) (by simp; omega) (by simp; omega)
  have t1 : ∀ x : Bytes, (Rfc.toByte oid 4 ++ x).drop oidLen = x := fun x => List.drop_left' (toByte_length _ _)
  simp only [List.append_nil] at hk
  rw [← split3] at hk
  rw [Family.keypairT, apiKeypairT, hp]
  simp only [w1, w2, hH]
  trsimp
  rw [t1, t1, hk]
  trsimp
  rfl

/-- **C72 (signing).**  The calls of a sign call with a key that is not used up: one PRF call, one hash of the message, and on every
layer the calls that the digest signed there determines.  A call with a used-up key hashes nothing.  In all cases, the number of
calls is at most the given one. -/
theorem C72_sign (hp : f.parse oid = some p) (hH : coreHash P p.func p.n = some H) (k : Key) (hk : k.Valid p)
    (idx : Nat) (hidx : idx < 256 ^ p.index_bytes) (sm : Bytes) (l0 : Nat) (m : Bytes) (hsm : p.sig_bytes + m.length ≤ sm.length) :
    ∃ o l, f.sign P (k.sk p oid idx) sm l0 m = some o ∧ callsOf (f.signT P (k.sk p oid idx) sm l0 m) = some l ∧
      (idx < 2 ^ p.full_height - 1 →
        l = Calls.sign p (suiteOf p H) m.length (Calls.digests (suiteOf p H) k.root k.pubSeed m (o.sm.take p.sig_bytes))) ∧
      (2 ^ p.full_height ≤ idx → l = []) ∧
      l.length ≤ 2 + p.d * (p.wots_len + 3 * (p.wots_len * (p.wots_w - 1)) + treeCount p) := by
  obtain ⟨g, hskb, ho, _⟩ := Family.facts (P := P) hp
  have hHl := Family.hash_length hp hH
  have hc := coreSignT_eq g hskb hHl (Rfc.toByte idx p.index_bytes) k.skSeed k.skPrf k.root k.pubSeed
    (sm.take p.sig_bytes) m ((sm.drop p.sig_bytes).take m.length) (sm.drop (p.sig_bytes + m.length)) (toByte_length _ _)
    hk.skSeed hk.skPrf hk.root hk.pubSeed (by simp; omega) (by simp; omega)
  rw [← split3, toNat_toByte, Nat.mod_eq_of_lt hidx] at hc
  have t1 : ∀ x : Bytes, (Rfc.toByte oid 4 ++ x).drop oidLen = x := fun x => List.drop_left' (toByte_length _ _)
  have hbound : ∀ Ms : List Bytes, Ms.length = p.d →
      (Calls.sign p (suiteOf p H) m.length Ms).length ≤ 2 + p.d * (p.wots_len + 3 * (p.wots_len * (p.wots_w - 1)) + treeCount p) := by
    intro Ms hMs
    have := flatten_le (Calls.signLayer p (suiteOf p H)) (p.wots_len + 3 * (p.wots_len * (p.wots_w - 1)) + treeCount p) Ms
      (fun M _ => by
        rw [signLayer_length]
        have := digits_sum (H := H) g M
        omega)
    rw [hMs] at this
    simp only [Calls.sign, List.length_append, Calls.prf, Calls.msg, List.length_cons, List.length_nil]
    omega
  refine ⟨_, (if idx < 2 ^ p.full_height - 1 then
        Calls.sign p (suiteOf p H) m.length (signDigests (suiteOf p H) k.skSeed k.pubSeed p.d 0 idx
          ((suiteOf p H).digest ((suiteOf p H).PRF k.skPrf (Rfc.toByte idx 32)) k.root idx m))
      else if idx = 2 ^ p.full_height - 1 then
        Calls.sign p (suiteOf p H) m.length (signDigests (suiteOf p H) (List.replicate p.n 0) (List.replicate p.n 0) p.d 0
          (2 ^ p.full_height - 1)
          ((suiteOf p H).digest ((suiteOf p H).PRF (List.replicate p.n 0) (Rfc.toByte (2 ^ p.full_height - 1) 32))
            (List.replicate p.n 0) (2 ^ p.full_height - 1) m))
      else []), sign_call hp hH k hk idx hidx sm l0 m hsm, ?_, ?_, ?_, ?_⟩
  · rw [Family.signT, apiSignT, Key.sk, readOid_toByte (by omega)]
    trsimp
    simp only [hp, hH, t1]
    trsimp
    rw [hc]
    trsimp
    rfl
  · intro h
    rw [if_pos h, if_pos h, List.append_assoc, List.take_left' (by
      have := sign_length g hHl k.skSeed k.skPrf k.root k.pubSeed idx m
      exact this)]
    rw [digests_sign g hHl _ _ _ _ _ _ hidx]
  · intro h
    rw [if_neg (by omega), if_neg (by have := Nat.two_pow_pos p.full_height; omega)]
  · split_ifs with h1 h2
    · exact hbound _ (signDigests_length _ _ _ _ _ _ _)
    · exact hbound _ (signDigests_length _ _ _ _ _ _ _)
    · simp

/-- **C72 (verification).**  The calls of an open call on any bytes: one hash of the message, and on every layer the calls that the
digest checked there determines; their number is at most the given one, for accepted and rejected input. -/
theorem C72_verify (hp : f.parse oid = some p) (hH : coreHash P p.func p.n = some H) (k : Key)
    (hr : k.root.length = p.n) (hps : k.pubSeed.length = p.n) (sm m : Bytes) (l0 smlen : Nat)
    (h1 : p.sig_bytes ≤ smlen) (h2 : smlen < 2 ^ 64) (hsm : smlen ≤ sm.length) (hm : smlen ≤ m.length) :
    ∃ l, callsOf (f.signOpenT P m l0 sm smlen (k.pk oid)) = some l ∧
      l = Calls.verify p (suiteOf p H) (smlen - p.sig_bytes) (Calls.digests (suiteOf p H) k.root k.pubSeed
        ((sm.drop p.sig_bytes).take (smlen - p.sig_bytes)) (sm.take p.sig_bytes)) ∧
      l.length ≤ 1 + p.d * (3 * (p.wots_len * (p.wots_w - 1)) + 4 * (p.wots_len - 1) + 4 * p.tree_height) := by
  obtain ⟨g, hskb, ho, _⟩ := Family.facts (P := P) hp
  have hHl := Family.hash_length hp hH
  refine ⟨_, ?_, rfl, ?_⟩
  · set sig := sm.take p.sig_bytes with hsig
    set msg := (sm.drop p.sig_bytes).take (smlen - p.sig_bytes) with hmsg
    have hml : msg.length = smlen - p.sig_bytes := by simp [msg]; omega
    have hmeq : p.sig_bytes + msg.length = smlen := by omega
    obtain ⟨mbuf, hb, _, hc⟩ := coreSignOpenT_eq g hHl k.root k.pubSeed [] sig msg (sm.drop smlen) (m.take smlen) (m.drop smlen)
      hr hps (by simp [sig]; omega) (by omega) (by simp; omega)
    have e1 : sig ++ msg ++ sm.drop smlen = sm := by
      have := split3 sm p.sig_bytes (smlen - p.sig_bytes)
      rw [Nat.add_sub_cancel' h1] at this
      exact this.symm
    rw [e1, List.take_append_drop, hmeq, List.append_nil] at hc
    have t1 : ∀ x : Bytes, (Rfc.toByte oid 4 ++ x).drop oidLen = x := fun x => List.drop_left' (toByte_length _ _)
    rw [Family.signOpenT, apiOpenT, Key.pk, readOid_toByte (by omega)]
    trsimp
    simp only [hp, hH, t1]
    trsimp
    rw [hc, hml]
    rfl
  · have := flatten_le (Calls.verifyLayer p (suiteOf p H))
      (3 * (p.wots_len * (p.wots_w - 1)) + 4 * (p.wots_len - 1) + 4 * p.tree_height)
      (Calls.digests (suiteOf p H) k.root k.pubSeed ((sm.drop p.sig_bytes).take (smlen - p.sig_bytes)) (sm.take p.sig_bytes))
      (fun M _ => by
        rw [verifyLayer_length]
        have := digits_sum (H := H) g M
        omega)
    rw [Calls.digests, layerDigests_length] at this
    simp only [Calls.verify, Calls.digests, List.length_append, Calls.msg, List.length_cons, List.length_nil]
    have hd : (suiteOf p H).d = p.d := rfl
    rw [hd] at this
    rw [hd]
    omega

/-! ### C73 -/

namespace HashCalls

theorem first_occ {v : Nat} : ∀ {l1 l2 r1 r2 : List Nat}, v ∉ l1 → v ∉ l2 → l1 ++ v :: r1 = l2 ++ v :: r2 → l1 = l2 ∧ r1 = r2
  | [], [], _, _, _, _, h => ⟨rfl, by simpa using h⟩
  | [], y :: l2, _, _, _, h2, h => by
    simp only [List.nil_append, List.cons_append, List.cons.injEq] at h
    exact absurd (by simp [h.1]) h2
  | x :: l1, [], _, _, h1, _, h => by
    simp only [List.nil_append, List.cons_append, List.cons.injEq] at h
    exact absurd (by simp [h.1]) h1
  | x :: l1, y :: l2, r1, r2, h1, h2, h => by
    simp only [List.cons_append, List.cons.injEq] at h
    simp only [List.mem_cons, not_or] at h1 h2
    have := first_occ h1.2 h2.2 h.2
    exact ⟨by rw [h.1, this.1], this.2⟩

/-- The steps of the chains on one layer can be read off the calls of the verifier. -/
theorem verifyLayer_inj (g : p.Good) (hn : p.n ≠ 16) {M M' : Bytes} {R R' : List Nat}
    (h : Calls.verifyLayer p (suiteOf p H) M ++ R = Calls.verifyLayer p (suiteOf p H') M' ++ R') :
    Calls.signLayer p (suiteOf p H) M = Calls.signLayer p (suiteOf p H') M' ∧ R = R' := by
  have hn0 := g.n_pos
  have hlen := g.len_ge
  set c := (((suiteOf p H).wotsDigits M).map fun l => (suiteOf p H).w - 1 - l).sum with hc
  set c' := (((suiteOf p H').wotsDigits M').map fun l => (suiteOf p H').w - 1 - l).sum with hc'
  set v := p.padding_len + p.n + 2 * p.n with hv
  have e : ∀ (x : Nat), Calls.rep x (Calls.f p) ++ Calls.rep (p.wots_len - 1) (Calls.h p) ++ Calls.rep p.tree_height (Calls.h p) =
      (Calls.rep x (Calls.f p) ++ (Calls.prf p ++ Calls.prf p ++ Calls.prf p)) ++ v ::
        (Calls.rep (p.wots_len - 2) (Calls.h p) ++ Calls.rep p.tree_height (Calls.h p)) := by
    intro x
    rw [show p.wots_len - 1 = (p.wots_len - 2) + 1 by omega, rep_succ, Calls.h]
    simp
    exact hv.symm
  have hnot : ∀ (x : Nat), v ∉ Calls.rep x (Calls.f p) ++ (Calls.prf p ++ Calls.prf p ++ Calls.prf p) := by
    intro x hx
    rw [List.mem_append] at hx
    rcases hx with hx | hx
    · have := rep_mem hx
      simp only [Calls.f, Calls.prf, List.mem_append, List.mem_cons, List.not_mem_nil, or_false] at this
      omega
    · simp only [Calls.prf, List.mem_append, List.mem_cons, List.not_mem_nil, or_false] at hx
      omega
  rw [Calls.verifyLayer, Calls.verifyLayer, ← hc, ← hc', e, e, List.append_assoc, List.append_assoc (_ ++ (_ ++ _ ++ _)),
    List.cons_append, List.cons_append] at h
  obtain ⟨h1, h2⟩ := first_occ (hnot c) (hnot c') h
  have hcc : c = c' := by
    have := congrArg List.length h1
    simp only [List.length_append, rep_length, Calls.f, Calls.prf, List.length_cons, List.length_nil] at this
    omega
  have s1 := digits_sum (H := H) g M
  have s2 := digits_sum (H := H') g M'
  rw [← hc] at s1
  rw [← hc'] at s2
  refine ⟨?_, List.append_cancel_left h2⟩
  rw [Calls.signLayer, Calls.signLayer, show ((suiteOf p H).wotsDigits M).sum = ((suiteOf p H').wotsDigits M').sum by omega]

theorem verify_layers_inj (g : p.Good) (hn : p.n ≠ 16) : ∀ {Ms Ms' : List Bytes}, Ms.length = Ms'.length →
    (Ms.map (Calls.verifyLayer p (suiteOf p H))).flatten = (Ms'.map (Calls.verifyLayer p (suiteOf p H'))).flatten →
    (Ms.map (Calls.signLayer p (suiteOf p H))).flatten = (Ms'.map (Calls.signLayer p (suiteOf p H'))).flatten
  | [], [], _, _ => rfl
  | [], _ :: _, h, _ => by simp at h
  | _ :: _, [], h, _ => by simp at h
  | M :: Ms, M' :: Ms', h, e => by
    simp only [List.map_cons, List.flatten_cons] at e ⊢
    obtain ⟨e1, e2⟩ := verifyLayer_inj g hn e
    rw [e1, verify_layers_inj g hn (by simpa using h) e2]

theorem n_ne (hH : coreHash P p.func p.n = some H) : p.n ≠ 16 := by
  intro h
  rw [h] at hH
  simp [coreHash] at hH

end HashCalls

/-- **C73.**  Two signers with keys of the same parameter set, whatever their secrets, hash functions, indices and messages.  When the
verifications of the two signatures make the same sequence of hash calls, then so did the signers: the calls of a signer are a function
of what everybody can compute. -/
theorem C73_no_secret_in_calls (hp : f.parse oid = some p) (hH : coreHash P p.func p.n = some H) (hH' : coreHash P' p.func p.n = some H')
    (k k' : Key) (hk : k.Valid p) (hk' : k'.Valid p) (idx idx' : Nat) (hi : idx < 2 ^ p.full_height - 1)
    (hi' : idx' < 2 ^ p.full_height - 1) (sm sm' m m' : Bytes) (l0 l0' : Nat) (hsm : p.sig_bytes + m.length ≤ sm.length)
    (hsm' : p.sig_bytes + m'.length ≤ sm'.length) (h64 : p.sig_bytes + m.length < 2 ^ 64) (h64' : p.sig_bytes + m'.length < 2 ^ 64)
    (b b' : Bytes) (hb : p.sig_bytes + m.length ≤ b.length) (hb' : p.sig_bytes + m'.length ≤ b'.length) :
    ∃ o o', f.sign P (k.sk p oid idx) sm l0 m = some o ∧ f.sign P' (k'.sk p oid idx') sm' l0' m' = some o' ∧
      (callsOf (f.signOpenT P b 0 o.sm o.smlen (k.pk oid)) = callsOf (f.signOpenT P' b' 0 o'.sm o'.smlen (k'.pk oid)) →
        callsOf (f.signT P (k.sk p oid idx) sm l0 m) = callsOf (f.signT P' (k'.sk p oid idx') sm' l0' m')) := by
  obtain ⟨g, hskb, ho, _⟩ := Family.facts (P := P) hp
  have hHl := Family.hash_length hp hH
  have hHl' := Family.hash_length hp hH'
  have hx : idx < 256 ^ p.index_bytes := by have := g.idx_fits; omega
  have hx' : idx' < 256 ^ p.index_bytes := by have := g.idx_fits; omega
  obtain ⟨o, l, a1, a2, a3, _, _⟩ := C72_sign hp hH k hk idx hx sm l0 m hsm
  obtain ⟨o', l', b1, b2, b3, _, _⟩ := C72_sign hp hH' k' hk' idx' hx' sm' l0' m' hsm'
  have q1 := sign_call hp hH k hk idx hx sm l0 m hsm
  have q2 := sign_call hp hH' k' hk' idx' hx' sm' l0' m' hsm'
  rw [a1] at q1
  rw [b1] at q2
  have sg : ((suiteOf p H).sign k.skSeed k.skPrf k.root k.pubSeed idx m).length = p.sig_bytes := sign_length g hHl _ _ _ _ _ _
  have sg' : ((suiteOf p H').sign k'.skSeed k'.skPrf k'.root k'.pubSeed idx' m').length = p.sig_bytes := sign_length g hHl' _ _ _ _ _ _
  have e1 : o.sm = (suiteOf p H).sign k.skSeed k.skPrf k.root k.pubSeed idx m ++ m ++ sm.drop (p.sig_bytes + m.length) := by
    have := congrArg SignOut.sm (Option.some.inj q1)
    simpa only [if_pos hi] using this
  have e2 : o'.sm = (suiteOf p H').sign k'.skSeed k'.skPrf k'.root k'.pubSeed idx' m' ++ m' ++ sm'.drop (p.sig_bytes + m'.length) := by
    have := congrArg SignOut.sm (Option.some.inj q2)
    simpa only [if_pos hi'] using this
  have n1 : o.smlen = p.sig_bytes + m.length := congrArg SignOut.smlen (Option.some.inj q1)
  have n2 : o'.smlen = p.sig_bytes + m'.length := congrArg SignOut.smlen (Option.some.inj q2)
  refine ⟨o, o', a1, b1, fun h => ?_⟩
  obtain ⟨v, c1, c2, _⟩ := C72_verify hp hH k hk.root hk.pubSeed o.sm b 0 o.smlen (by omega) (by omega)
    (by rw [e1, n1]; simp only [List.length_append, sg]; omega) (by omega)
  obtain ⟨v', d1, d2, _⟩ := C72_verify hp hH' k' hk'.root hk'.pubSeed o'.sm b' 0 o'.smlen (by omega) (by omega)
    (by rw [e2, n2]; simp only [List.length_append, sg']; omega) (by omega)
  rw [c1, d1, c2, d2, n1, n2, Nat.add_sub_cancel_left, Nat.add_sub_cancel_left] at h
  have h := Option.some.inj h
  simp only [Calls.verify, Calls.msg, List.cons_append, List.nil_append, List.cons.injEq] at h
  have t1 : (o.sm.drop p.sig_bytes).take m.length = m := by
    rw [e1, List.append_assoc, List.drop_left' sg, List.take_left]
  have t2 : (o'.sm.drop p.sig_bytes).take m'.length = m' := by
    rw [e2, List.append_assoc, List.drop_left' sg', List.take_left]
  rw [t1, t2] at h
  have hm : m.length = m'.length := by omega
  rw [a2, b2, a3 hi, b3 hi', Calls.sign, Calls.sign, hm,
    verify_layers_inj g (n_ne hH) (by rw [Calls.digests, Calls.digests, layerDigests_length, layerDigests_length]; rfl) h.2]

/-- Signing and verifying together always take the same number of calls: what the signer saves on the chains the verifier pays. -/
theorem C73_together (hp : f.parse oid = some p) (hH : coreHash P p.func p.n = some H) (k : Key) (hk : k.Valid p) (idx : Nat)
    (hi : idx < 2 ^ p.full_height - 1) (sm m : Bytes) (l0 : Nat) (hsm : p.sig_bytes + m.length ≤ sm.length)
    (h64 : p.sig_bytes + m.length < 2 ^ 64) (b : Bytes) (hb : p.sig_bytes + m.length ≤ b.length) :
    ∃ o s v, f.sign P (k.sk p oid idx) sm l0 m = some o ∧ callsOf (f.signT P (k.sk p oid idx) sm l0 m) = some s ∧
      callsOf (f.signOpenT P b 0 o.sm o.smlen (k.pk oid)) = some v ∧
      s.length + v.length = 3 + p.d * (p.wots_len + 3 * (p.wots_len * (p.wots_w - 1)) + 4 * (p.wots_len - 1) + 4 * p.tree_height +
        treeCount p) := by
  obtain ⟨g, hskb, ho, _⟩ := Family.facts (P := P) hp
  have hHl := Family.hash_length hp hH
  have hx : idx < 256 ^ p.index_bytes := by have := g.idx_fits; omega
  obtain ⟨o, l, a1, a2, a3, _, _⟩ := C72_sign hp hH k hk idx hx sm l0 m hsm
  have q1 := sign_call hp hH k hk idx hx sm l0 m hsm
  rw [a1] at q1
  have sg : ((suiteOf p H).sign k.skSeed k.skPrf k.root k.pubSeed idx m).length = p.sig_bytes := sign_length g hHl _ _ _ _ _ _
  have e1 : o.sm = (suiteOf p H).sign k.skSeed k.skPrf k.root k.pubSeed idx m ++ m ++ sm.drop (p.sig_bytes + m.length) := by
    have := congrArg SignOut.sm (Option.some.inj q1)
    simpa only [if_pos hi] using this
  have n1 : o.smlen = p.sig_bytes + m.length := congrArg SignOut.smlen (Option.some.inj q1)
  obtain ⟨v, c1, c2, _⟩ := C72_verify hp hH k hk.root hk.pubSeed o.sm b 0 o.smlen (by omega) (by omega)
    (by rw [e1, n1]; simp only [List.length_append, sg]; omega) (by omega)
  have t1 : (o.sm.drop p.sig_bytes).take m.length = m := by
    rw [e1, List.append_assoc, List.drop_left' sg, List.take_left]
  rw [n1, Nat.add_sub_cancel_left, t1] at c2
  refine ⟨o, l, v, a1, a2, c1, ?_⟩
  have := flatten_eq (Calls.signLayer p (suiteOf p H)) (Calls.verifyLayer p (suiteOf p H))
    (p.wots_len + 3 * (p.wots_len * (p.wots_w - 1)) + 4 * (p.wots_len - 1) + 4 * p.tree_height + treeCount p)
    (Calls.digests (suiteOf p H) k.root k.pubSeed m (o.sm.take p.sig_bytes)) (fun M _ => by
      rw [signLayer_length, verifyLayer_length]
      have := digits_sum (H := H) g M
      omega)
  have hl : (Calls.digests (suiteOf p H) k.root k.pubSeed m (o.sm.take p.sig_bytes)).length = p.d := by
    rw [Calls.digests, layerDigests_length]; rfl
  rw [hl] at this
  rw [a3 hi, c2]
  simp only [Calls.sign, Calls.verify, List.length_append, Calls.prf, Calls.msg, List.length_cons, List.length_nil]
  omega

/-- C72 for XMSS-SHA2_10_256: every key generation makes 3430396 calls, verification at most 3320, signing at most 3433480. -/
theorem C72_example (P : Prims) (seed : Nat → Bytes) (hs : (seed 32).length = 96) :
    (∃ l, callsOf (Family.keypairT P .xmss (List.replicate 68 0) (List.replicate 136 0) 1 seed) = some l ∧ l.length = 3430396) ∧
    (∀ (k : Key), k.Valid Reuse.q → ∀ (sm m : Bytes), 2500 ≤ sm.length → sm.length < 2 ^ 64 → sm.length ≤ m.length →
      ∃ l, callsOf (Family.signOpenT P .xmss m 0 sm sm.length (k.pk 1)) = some l ∧ l.length ≤ 3320) ∧
    (∀ (k : Key), k.Valid Reuse.q → ∀ (idx : Nat), idx < 2 ^ 32 → ∀ (sm m : Bytes), 2500 + m.length ≤ sm.length →
      ∃ l, callsOf (Family.signT P .xmss (k.sk Reuse.q 1 idx) sm 0 m) = some l ∧ l.length ≤ 3433480) := by
  have hp : Family.xmss.parse 1 = some Reuse.q := rfl
  have hH : coreHash P Reuse.q.func Reuse.q.n = some P.sha256 := rfl
  have ht : treeCount Reuse.q = 3430396 := by decide +kernel
  refine ⟨?_, ?_, ?_⟩
  · obtain ⟨h1, h2⟩ := C72_keygen hp hH (List.replicate 68 0) (List.replicate 136 0) (by simp; rfl) (by simp; rfl) seed hs
    exact ⟨_, h1, by rw [h2, ht]⟩
  · intro k hk sm m h1 h2 h3
    obtain ⟨l, a, _, b⟩ := C72_verify hp hH k hk.root hk.pubSeed sm m 0 sm.length h1 h2 le_rfl h3
    exact ⟨l, a, le_trans b (by decide +kernel)⟩
  · intro k hk idx hi sm m h1
    obtain ⟨o, l, _, a, _, _, b⟩ := C72_sign hp hH k hk idx hi sm 0 m h1
    exact ⟨l, a, le_trans b (by rw [ht]; decide +kernel)⟩

/-- Non-vacuity of C73: with the worthless hash function `lastBytes`, keys with different secrets but the same public key give the
same signature, so the verifications make the same calls. -/
theorem C73_example (k k' : Key) (hk : k.Valid Reuse.q) (hk' : k'.Valid Reuse.q) (hr : k.root = k'.root) (hs : k.pubSeed = k'.pubSeed)
    (idx : Nat) (hi : idx < 1023) (sm m : Bytes) (hsm : 2500 + m.length ≤ sm.length) (h64 : 2500 + m.length < 2 ^ 64) :
    callsOf (Family.signT Reuse.lastPrims .xmss (k.sk Reuse.q 1 idx) sm 0 m) =
      callsOf (Family.signT Reuse.lastPrims .xmss (k'.sk Reuse.q 1 idx) sm 0 m) := by
  have hp : Family.xmss.parse 1 = some Reuse.q := rfl
  have hH : coreHash Reuse.lastPrims Reuse.q.func Reuse.q.n = some Reuse.lastBytes := rfl
  have hi' : idx < 2 ^ Reuse.q.full_height - 1 := hi
  have hx : idx < 256 ^ Reuse.q.index_bytes := lt_trans hi (by decide)
  obtain ⟨o, o', h1, h2, h3⟩ := C73_no_secret_in_calls hp hH hH k k' hk hk' idx idx hi' hi' sm sm m m 0 0 hsm hsm h64 h64
    sm sm hsm hsm
  apply h3
  have q1 := sign_call hp hH k hk idx hx sm 0 m hsm
  have q2 := sign_call hp hH k' hk' idx hx sm 0 m hsm
  rw [h1] at q1
  rw [h2] at q2
  have e1 := Option.some.inj q1
  have e2 := Option.some.inj q2
  have es : o.sm = o'.sm := by
    rw [e1, e2]
    simp only [if_pos hi']
    rw [hr, hs, SecretsPrf.sign_same (H := Reuse.lastBytes) (H' := Reuse.lastBytes) (p := Reuse.q)
      (a := k.skSeed) (b := k.skPrf) (a' := k'.skSeed) (b' := k'.skPrf)
      ⟨fun _ _ => rfl, fun _ _ => rfl, fun _ _ => rfl, fun _ => rfl⟩
      ⟨fun layer tree ots chain => by
        simp only [Rfc.Suite.PRFkeygen, suiteOf, ← List.append_assoc]
        rw [Reuse.lastBytes_append _ _ (by simp [Rfc.Suite.otsAdrs, toByte_length]),
          Reuse.lastBytes_append _ _ (by simp [Rfc.Suite.otsAdrs, toByte_length])],
       fun idx => by
        simp only [Rfc.Suite.PRF, suiteOf]
        rw [Reuse.lastBytes_append _ _ (toByte_length _ _), Reuse.lastBytes_append _ _ (toByte_length _ _)]⟩]
  have en : o.smlen = o'.smlen := by rw [e1, e2]
  rw [es, en, Key.pk, Key.pk, hr, hs]

end Xmss
