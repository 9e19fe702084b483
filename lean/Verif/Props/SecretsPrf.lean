import Verif.Props.FastHistory
import Verif.Props.Reuse
/-
C71: the two secret seeds are used as keys of the pseudorandom functions and for nothing else.

Two signers are compared, with different secret seeds and different hash functions.  If the hash functions agree on the inputs that
an outsider can form (everything but the calls of PRF and PRF_keygen with a secret key), and the pseudorandom functions give the
same values, then the public key and all signatures are the same, byte for byte.  This is the step of the security argument
in which the pseudorandom functions are replaced by random ones.
-/
namespace Xmss

variable {f : Family} {oid : Nat} {p pf : Params} {H H' : Bytes → Bytes}

namespace SecretsPrf

/-- The two hash functions agree on what an outsider can compute: F, H, H_msg with any key, and PRF keyed with the public seed. -/
structure PublicSame (S S' : Rfc.Suite) (pubSeed : Bytes) : Prop where
  F : ∀ key m, S.F key m = S'.F key m
  H : ∀ key m, S.H key m = S'.H key m
  Hmsg : ∀ key m, S.Hmsg key m = S'.Hmsg key m
  PRF : ∀ m, S.PRF pubSeed m = S'.PRF pubSeed m

/-- The pseudorandom functions give the two signers the same values. -/
structure SecretSame (S S' : Rfc.Suite) (pubSeed skSeed skPrf skSeed' skPrf' : Bytes) : Prop where
  PRFkeygen : ∀ layer tree ots chain,
    S.PRFkeygen skSeed (pubSeed ++ Rfc.Suite.otsAdrs layer tree ots chain 0 0) =
      S'.PRFkeygen skSeed' (pubSeed ++ Rfc.Suite.otsAdrs layer tree ots chain 0 0)
  PRF : ∀ idx, S.PRF skPrf (Rfc.toByte idx 32) = S'.PRF skPrf' (Rfc.toByte idx 32)

variable {seed a b a' b' : Bytes}

theorem chain_same (h : PublicSame (suiteOf p H) (suiteOf p H') seed) (adrs : Nat → Nat → Bytes) (x : Bytes) (i s : Nat) :
    (suiteOf p H).chain seed adrs x i s = (suiteOf p H').chain seed adrs x i s := by
  induction s with
  | zero => rfl
  | succ s ih => rw [Rfc.Suite.chain, Rfc.Suite.chain, ih, Rfc.Suite.chainStep, Rfc.Suite.chainStep, h.F, h.PRF, h.PRF]

theorem randHash_same (h : PublicSame (suiteOf p H) (suiteOf p H') seed) :
    (suiteOf p H).randHash seed = (suiteOf p H').randHash seed := by
  funext adrs l r
  rw [Rfc.Suite.randHash, Rfc.Suite.randHash, h.H, h.PRF, h.PRF, h.PRF]

theorem wotsPk_same (h : PublicSame (suiteOf p H) (suiteOf p H') seed) (hs : SecretSame (suiteOf p H) (suiteOf p H') seed a b a' b')
    (layer tree ots : Nat) : (suiteOf p H).wotsPk a seed layer tree ots = (suiteOf p H').wotsPk a' seed layer tree ots := by
  rw [Rfc.Suite.wotsPk, Rfc.Suite.wotsPk, show (suiteOf p H').len = (suiteOf p H).len from rfl]
  apply List.map_congr_left
  intro j _
  rw [chain_same h, Rfc.Suite.wotsSk, Rfc.Suite.wotsSk, hs.PRFkeygen]
  rfl

theorem wotsSig_same (h : PublicSame (suiteOf p H) (suiteOf p H') seed) (hs : SecretSame (suiteOf p H) (suiteOf p H') seed a b a' b')
    (M : Bytes) (layer tree ots : Nat) :
    (suiteOf p H).wotsSig a seed M layer tree ots = (suiteOf p H').wotsSig a' seed M layer tree ots := by
  rw [Rfc.Suite.wotsSig, Rfc.Suite.wotsSig, show (suiteOf p H').len = (suiteOf p H).len from rfl]
  apply List.map_congr_left
  intro j _
  rw [chain_same h, Rfc.Suite.wotsSk, Rfc.Suite.wotsSk, hs.PRFkeygen]
  rfl

theorem node_same (h : PublicSame (suiteOf p H) (suiteOf p H') seed) (hs : SecretSame (suiteOf p H) (suiteOf p H') seed a b a' b')
    (layer tree k i : Nat) : (suiteOf p H).node a seed layer tree k i = (suiteOf p H').node a' seed layer tree k i := by
  induction k generalizing i with
  | zero =>
    rw [Rfc.Suite.node, Rfc.Suite.node, Rfc.Suite.leaf, Rfc.Suite.leaf, Rfc.Suite.ltree, Rfc.Suite.ltree, wotsPk_same h hs,
      randHash_same h]
  | succ k ih => rw [Rfc.Suite.node, Rfc.Suite.node, ih, ih, randHash_same h]

theorem treeRoot_same (h : PublicSame (suiteOf p H) (suiteOf p H') seed) (hs : SecretSame (suiteOf p H) (suiteOf p H') seed a b a' b')
    (layer tree : Nat) : (suiteOf p H).treeRoot a seed layer tree = (suiteOf p H').treeRoot a' seed layer tree := by
  rw [Rfc.Suite.treeRoot, Rfc.Suite.treeRoot, node_same h hs]
  rfl

theorem signLayers_same (h : PublicSame (suiteOf p H) (suiteOf p H') seed) (hs : SecretSame (suiteOf p H) (suiteOf p H') seed a b a' b')
    (k : Nat) : ∀ (layer idx : Nat) (M : Bytes),
      (suiteOf p H).signLayers a seed k layer idx M = (suiteOf p H').signLayers a' seed k layer idx M := by
  induction k with
  | zero => intro _ _ _; rfl
  | succ k ih =>
    intro layer idx M
    rw [Rfc.Suite.signLayers, Rfc.Suite.signLayers]
    simp only [show (suiteOf p H').hp = (suiteOf p H).hp from rfl]
    rw [wotsSig_same h hs, treeRoot_same h hs, ih]
    congr 3
    rw [Rfc.Suite.authPath, Rfc.Suite.authPath, show (suiteOf p H').hp = (suiteOf p H).hp from rfl]
    apply List.map_congr_left
    intro j _
    rw [node_same h hs]

theorem sign_same (h : PublicSame (suiteOf p H) (suiteOf p H') seed) (hs : SecretSame (suiteOf p H) (suiteOf p H') seed a b a' b')
    (root : Bytes) (idx : Nat) (M : Bytes) :
    (suiteOf p H).sign a b root seed idx M = (suiteOf p H').sign a' b' root seed idx M := by
  rw [Rfc.Suite.sign, Rfc.Suite.sign]
  simp only [Rfc.Suite.digest]
  rw [hs.PRF, h.Hmsg, signLayers_same h hs]
  rfl

/-- What the caller of sign sees: return value, buffer, length. -/
def visible (o : SignOut) : Int × Bytes × Nat := (o.ret, o.sm, o.smlen)

theorem split_seed {n : Nat} {a b c a' b' c' : Bytes} (h : a ++ b ++ c = a' ++ b' ++ c') (h1 : a.length = n) (h2 : b.length = n)
    (h1' : a'.length = n) (h2' : b'.length = n) : a = a' ∧ b = b' ∧ c = c' := by
  rw [List.append_assoc, List.append_assoc] at h
  obtain ⟨e1, e2⟩ := List.append_inj h (by omega)
  obtain ⟨e3, e4⟩ := List.append_inj e2 (by omega)
  exact ⟨e1, e3, e4⟩

end SecretsPrf
open SecretsPrf

/-- **C71.**  Two key pairs with the same public seed, generated and used by the simple implementation with possibly different hash
functions.  If an outsider sees no difference between the hash functions and the pseudorandom functions give the two signers the
same values, then the public keys are equal, and so is everything the sign calls of any history return. -/
theorem C71_secrets_only_prf (P P' : Prims) (hp : f.parse oid = some p) (hH : coreHash P p.func p.n = some H)
    (hH' : coreHash P' p.func p.n = some H') (pk0 sk0 pk0' sk0' : Bytes) (hpk : pk0.length = 4 + p.pk_bytes)
    (hsk : sk0.length = 4 + p.sk_bytes) (hpk' : pk0'.length = 4 + p.pk_bytes) (hsk' : sk0'.length = 4 + p.sk_bytes)
    (skSeed skPrf skSeed' skPrf' pubSeed : Bytes) (h1 : skSeed.length = p.n) (h2 : skPrf.length = p.n)
    (h1' : skSeed'.length = p.n) (h2' : skPrf'.length = p.n) (h3 : pubSeed.length = p.n)
    (hpub : PublicSame (suiteOf p H) (suiteOf p H') pubSeed)
    (hsec : SecretSame (suiteOf p H) (suiteOf p H') pubSeed skSeed skPrf skSeed' skPrf') :
    ∃ pk sk sk', f.keypair P pk0 sk0 oid (fun _ => skSeed ++ skPrf ++ pubSeed) = some (0, pk, sk) ∧
      f.keypair P' pk0' sk0' oid (fun _ => skSeed' ++ skPrf' ++ pubSeed) = some (0, pk, sk') ∧
      ∀ cs, Sized p cs → cs.length ≤ 2 ^ p.full_height - 1 →
        ∃ outs outs', signAll P f sk cs = some outs ∧ signAll P' f sk' cs = some outs' ∧
          outs.map visible = outs'.map visible := by
  obtain ⟨k, e1, e2, e3, hh, hv, hk, _⟩ := C30_key_layout (f := f) hp hH pk0 sk0 hpk hsk (fun _ => skSeed ++ skPrf ++ pubSeed)
    skSeed skPrf pubSeed rfl h1 h2 h3
  obtain ⟨k', e1', e2', e3', hh', hv', hk', _⟩ := C30_key_layout (f := f) hp hH' pk0' sk0' hpk' hsk'
    (fun _ => skSeed' ++ skPrf' ++ pubSeed) skSeed' skPrf' pubSeed rfl h1' h2' h3
  have eroot : k'.root = k.root := by
    rw [hh, hh', e1, e3, e1', e3', Rfc.Suite.root, Rfc.Suite.root, treeRoot_same hpub hsec]
    rfl
  have epk : k'.pk oid = k.pk oid := by rw [Key.pk, Key.pk, eroot, e3, e3']
  refine ⟨_, _, _, hk, by rw [← epk]; exact hk', ?_⟩
  intro cs hcs hlen
  refine ⟨_, _, signAll_eq hp hH cs 0 k hv (by positivity) hcs, signAll_eq hp hH' cs 0 k' hv' (by positivity) hcs, ?_⟩
  apply List.ext_getElem
  · simp
  · intro j hj1 hj2
    have hj : j < cs.length := by simpa using hj1
    simp only [List.getElem_map, List.getElem_mapIdx]
    rw [stateAfter_lt _ (by omega), stateAfter_lt _ (by omega)]
    simp only [visible, outcome, if_pos (show j < 2 ^ p.full_height - 1 by omega)]
    rw [e1, e2, e3, e1', e2', e3', eroot, sign_same hpub hsec]

/-- **C71 (fast build).**  The same for the fast implementation, for the histories it is defined on. -/
theorem C71_fast (P P' : Prims) (hp : f.parseFast oid = some p) (hH : coreHash P p.func p.n = some H)
    (hH' : coreHash P' p.func p.n = some H') (pk0 sk0 pk0' sk0' : Bytes) (hpk : pk0.length = 4 + p.pk_bytes)
    (hsk : sk0.length = 4 + p.sk_bytes) (hpk' : pk0'.length = 4 + p.pk_bytes) (hsk' : sk0'.length = 4 + p.sk_bytes)
    (skSeed skPrf skSeed' skPrf' pubSeed : Bytes) (h1 : skSeed.length = p.n) (h2 : skPrf.length = p.n)
    (h1' : skSeed'.length = p.n) (h2' : skPrf'.length = p.n) (h3 : pubSeed.length = p.n)
    (hpub : PublicSame (suiteOf p H) (suiteOf p H') pubSeed)
    (hsec : SecretSame (suiteOf p H) (suiteOf p H') pubSeed skSeed skPrf skSeed' skPrf') :
    ∃ pk sk sk', f.keypairFast P pk0 sk0 oid (fun _ => skSeed ++ skPrf ++ pubSeed) = some (0, pk, sk) ∧
      f.keypairFast P' pk0' sk0' oid (fun _ => skSeed' ++ skPrf' ++ pubSeed) = some (0, pk, sk') ∧
      ∀ cs, (∀ c ∈ cs, p.sig_bytes + c.msg.length ≤ c.sm.length) → FastCovered p cs → cs.length ≤ 2 ^ p.full_height - 1 →
        ∃ outs outs', signAllFast P f sk cs = some outs ∧ signAllFast P' f sk' cs = some outs' ∧
          outs.map (fun o => visible o.toSignOut) = outs'.map fun o => visible o.toSignOut := by
  obtain ⟨k, hv, hh, hsd, sk, _, hk, hist⟩ := fast_history (f := f) hp hH pk0 sk0 hpk hsk (fun _ => skSeed ++ skPrf ++ pubSeed)
    (by simp only [List.length_append]; omega)
  obtain ⟨k', hv', hh', hsd', sk', _, hk', hist'⟩ := fast_history (f := f) hp hH' pk0' sk0' hpk' hsk'
    (fun _ => skSeed' ++ skPrf' ++ pubSeed) (by simp only [List.length_append]; omega)
  obtain ⟨e1, e2, e3⟩ := split_seed hsd h1 h2 hv.skSeed hv.skPrf
  obtain ⟨e1', e2', e3'⟩ := split_seed hsd' h1' h2' hv'.skSeed hv'.skPrf
  have eroot : k'.root = k.root := by
    rw [hh, hh', ← e1, ← e3, ← e1', ← e3', Rfc.Suite.root, Rfc.Suite.root, treeRoot_same hpub hsec]
    rfl
  have epk : k'.pk oid = k.pk oid := by rw [Key.pk, Key.pk, eroot, ← e3, ← e3']
  refine ⟨_, _, _, hk, by rw [← epk]; exact hk', ?_⟩
  intro cs hcs hcov hlen
  obtain ⟨os, a1, a2, a3⟩ := hist cs hcs hcov
  obtain ⟨os', a1', a2', a3'⟩ := hist' cs hcs hcov
  refine ⟨_, _, a1, a1', ?_⟩
  apply List.ext_getElem
  · simp [a2, a2']
  · intro j hj1 hj2
    have hj : j < cs.length := by simpa [a2] using hj1
    obtain ⟨o, o1, post⟩ := a3 j _ (List.getElem?_eq_getElem hj)
    obtain ⟨o', o1', post'⟩ := a3' j _ (List.getElem?_eq_getElem hj)
    obtain ⟨_, o2⟩ := List.getElem?_eq_some_iff.mp o1
    obtain ⟨_, o2'⟩ := List.getElem?_eq_some_iff.mp o1'
    obtain ⟨q1, q2, q3, _⟩ := post.ok (by omega)
    obtain ⟨q1', q2', q3', _⟩ := post'.ok (by omega)
    simp only [List.getElem_map, o2, o2', visible]
    rw [q1, q2, q3, q1', q2', q3', ← e1, ← e2, ← e3, ← e1', ← e2', ← e3', eroot, sign_same hpub hsec]

/-- Non-vacuity of C71: with the worthless hash function `lastBytes` (the last 32 bytes of the input) the pseudorandom functions do not
depend on their keys; so all secret seeds give the same public key and the same signatures. -/
theorem C71_example (skSeed skPrf skSeed' skPrf' pubSeed : Bytes) (h1 : skSeed.length = 32) (h2 : skPrf.length = 32)
    (h1' : skSeed'.length = 32) (h2' : skPrf'.length = 32) (h3 : pubSeed.length = 32) :
    ∃ pk sk sk', xmssKeypair Reuse.lastPrims (List.replicate 68 0) (List.replicate 136 0) 1 (fun _ => skSeed ++ skPrf ++ pubSeed) =
        some (0, pk, sk) ∧
      xmssKeypair Reuse.lastPrims (List.replicate 68 0) (List.replicate 136 0) 1 (fun _ => skSeed' ++ skPrf' ++ pubSeed) =
        some (0, pk, sk') ∧
      ∀ cs, Sized Reuse.q cs → cs.length ≤ 1023 →
        ∃ outs outs', signAll Reuse.lastPrims .xmss sk cs = some outs ∧ signAll Reuse.lastPrims .xmss sk' cs = some outs' ∧
          outs.map visible = outs'.map visible := by
  have hH : coreHash Reuse.lastPrims Reuse.q.func Reuse.q.n = some Reuse.lastBytes := rfl
  exact C71_secrets_only_prf (f := .xmss) (p := Reuse.q) Reuse.lastPrims Reuse.lastPrims rfl hH hH _ _ _ _ (by simp; rfl)
    (by simp; rfl) (by simp; rfl) (by simp; rfl) skSeed skPrf skSeed' skPrf' pubSeed h1 h2 h1' h2' h3
    ⟨fun _ _ => rfl, fun _ _ => rfl, fun _ _ => rfl, fun _ => rfl⟩
    ⟨fun layer tree ots chain => by
      simp only [Rfc.Suite.PRFkeygen, suiteOf, ← List.append_assoc]
      rw [Reuse.lastBytes_append _ _ (by simp [Rfc.Suite.otsAdrs, toByte_length]),
        Reuse.lastBytes_append _ _ (by simp [Rfc.Suite.otsAdrs, toByte_length])],
     fun idx => by
      simp only [Rfc.Suite.PRF, suiteOf]
      rw [Reuse.lastBytes_append _ _ (toByte_length _ _), Reuse.lastBytes_append _ _ (toByte_length _ _)]⟩

end Xmss
