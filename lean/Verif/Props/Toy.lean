import Verif.Props.History
/-
A concrete (cryptographically worthless) hash function under which the behaviour of the code at the last index can be
computed by hand: it refutes C17 outright, and gives rejected inputs for C25.
-/
namespace Xmss.Toy

/-- Toy replacement for SHA-256: returns the first message block in the roles F and H (32nd byte 0 or 1) and the key
in all other roles. -/
def hash (x : Bytes) : Bytes :=
  ((if (x.getD 31 0).toNat ≤ 1 then x.drop 64 else x.drop 32).take 32 ++ List.replicate 32 0).take 32

theorem hash_length (x : Bytes) : (hash x).length = 32 := by
  simp only [hash, List.length_take, List.length_append, List.length_replicate]
  omega

/-- The toy primitives. -/
def prims : Prims where
  sha256 := hash
  sha512 := fun _ => List.replicate 64 0
  sha256_length := hash_length
  sha512_length := fun _ => by simp

/-- XMSS-SHA2_10_256 -/
abbrev p : Params := params16 slowSkBytes .sha2 32 32 10 1 0
abbrev S : Rfc.Suite := suiteOf p hash
abbrev zero : Bytes := List.replicate 32 0

theorem hash_key (r : Nat) (hr : 1 < r) (hr' : r < 256) (key rest : Bytes) (hk : key.length = 32) :
    hash (Rfc.toByte r 32 ++ key ++ rest) = key := by
  have h1 : ((Rfc.toByte r 32 ++ key ++ rest).getD 31 0).toNat = r := by
    rw [List.append_assoc, List.getD_append _ _ _ _ (by simp [toByte_length])]
    simp [Rfc.toByte, Nat.mod_eq_of_lt hr']
  rw [hash, h1, if_neg (by omega), List.append_assoc, List.drop_left' (toByte_length _ _), List.take_left' hk,
    List.take_left' hk]

theorem hash_msg (r : Nat) (hr : r ≤ 1) (key a rest : Bytes) (hk : key.length = 32) (ha : a.length = 32) :
    hash (Rfc.toByte r 32 ++ key ++ (a ++ rest)) = a := by
  have h1 : ((Rfc.toByte r 32 ++ key ++ (a ++ rest)).getD 31 0).toNat = r := by
    rw [List.append_assoc, List.getD_append _ _ _ _ (by simp [toByte_length])]
    have : r % 256 = r := Nat.mod_eq_of_lt (by omega)
    simp [Rfc.toByte, this]
  rw [hash, h1, if_pos hr, List.drop_left' (by simp [toByte_length, hk]), List.take_left' ha,
    List.take_left' ha]

theorem prf_eq (key m : Bytes) (hk : key.length = 32) : S.PRF key m = key := hash_key 3 (by omega) (by omega) key m hk

theorem xor_zero (x : Bytes) (hx : x.length = 32) : Rfc.xor x zero = x := by
  have : ∀ (n : Nat) (x : Bytes), x.length = n → Rfc.xor x (List.replicate n 0) = x := by
    intro n
    induction n with
    | zero => intro x h; simp [List.length_eq_zero_iff.mp h, Rfc.xor]
    | succ n ih =>
      intro x h
      cases x with
      | nil => simp at h
      | cons a x =>
        rw [List.replicate_succ, Rfc.xor, List.zipWith_cons_cons]
        have := ih x (by simpa using h)
        rw [Rfc.xor] at this
        rw [this]
        simp
  exact this 32 x hx

theorem randHash_eq (adrs : Nat → Bytes) (l r : Bytes) (hl : l.length = 32) : S.randHash zero adrs l r = l := by
  rw [Rfc.Suite.randHash, prf_eq zero _ (by simp), prf_eq zero _ (by simp), prf_eq zero _ (by simp), xor_zero l hl]
  exact hash_msg 1 (by omega) zero l _ (by simp) hl

theorem chain_eq (adrs : Nat → Nat → Bytes) (x : Bytes) (hx : x.length = 32) (i s : Nat) : S.chain zero adrs x i s = x := by
  induction s with
  | zero => rfl
  | succ s ih =>
    rw [Rfc.Suite.chain, ih, Rfc.Suite.chainStep, prf_eq zero _ (by simp), prf_eq zero _ (by simp), xor_zero x hx]
    have := hash_msg 0 (by omega) zero x [] (by simp) hx
    rw [List.append_nil] at this
    exact this

theorem ltreeRows_head (l t i : Nat) (x : Bytes) (hx : x.length = 32) : ∀ k h (rest : List Bytes),
    (Rfc.Suite.ltreeRows (fun height j => S.randHash zero (Rfc.Suite.ltreeAdrs l t i height j)) k h (x :: rest)).getD 0 [] = x := by
  intro k
  induction k with
  | zero => intro h rest; rfl
  | succ k ih =>
    intro h rest
    rw [Rfc.Suite.ltreeRows]
    split
    · rfl
    · cases rest with
      | nil => exact ih _ _
      | cons y rest => rw [Rfc.Suite.ltreeRow, randHash_eq _ _ _ hx]; exact ih _ _

theorem leaf_eq (x : Bytes) (hx : x.length = 32) (l t i : Nat) : S.leaf x zero l t i = x := by
  have e : S.len = 66 + 1 := by decide
  have hpk : ∃ rest, S.wotsPk x zero l t i = x :: rest := by
    rw [Rfc.Suite.wotsPk, e, List.range_succ_eq_map, List.map_cons]
    have hsk : S.wotsSk x zero l t i 0 = x := hash_key 4 (by omega) (by omega) x _ hx
    rw [hsk, chain_eq _ _ hx]
    exact ⟨_, rfl⟩
  obtain ⟨rest, hpk⟩ := hpk
  rw [Rfc.Suite.leaf, Rfc.Suite.ltree, hpk]
  exact ltreeRows_head l t i x hx _ _ _

theorem node_eq (x : Bytes) (hx : x.length = 32) (l t : Nat) : ∀ k i, S.node x zero l t k i = x := by
  intro k
  induction k with
  | zero => intro i; exact leaf_eq x hx l t i
  | succ k ih => intro i; rw [Rfc.Suite.node, ih, ih, randHash_eq _ _ _ hx]

/-- The key with SK_SEED = 01 00 .. 00, SK_PRF = PUB_SEED = 0 (and, with the toy hash, root = SK_SEED). -/
def key : Key := ⟨1 :: List.replicate 31 0, zero, 1 :: List.replicate 31 0, zero⟩

theorem key_valid : key.Valid p := ⟨by simp [key]; rfl, by simp [key]; rfl, by simp [key]; rfl, by simp [key]; rfl⟩

theorem key_honest : key.Honest S := by
  have := node_eq key.skSeed (by simp [key]) (p.d - 1) 0 S.hp 0
  exact this.symm

theorem toy_good : p.Good := xmss_parse_good (skBytes := slowSkBytes) (oid := 1) rfl

theorem blocks_getD (n k j : Nat) (b : Bytes) (hj : j < k) : (Rfc.blocks n k b).getD j [] = (b.drop (j * n)).take n := by
  rw [List.getD_eq_getElem?_getD, List.getElem?_eq_getElem (by simp [Rfc.blocks, hj])]
  simp [Rfc.blocks]

/-- The verifier applied to the last signature computes the all-zero root. -/
theorem verifyRoot_last (root m : Bytes) : S.verifyRoot root zero m (lastSig p hash m) = zero := by
  have g := toy_good
  have hH := hash_length
  have hhp : S.hp = 10 := by decide
  have l1 : (Rfc.toByte (2 ^ p.full_height - 1) S.idxLen).length = 4 := toByte_length _ _
  have l2 : (S.PRF zero (Rfc.toByte (2 ^ p.full_height - 1) 32)).length = 32 := hash_length _
  set R := S.PRF zero (Rfc.toByte (2 ^ p.full_height - 1) 32) with hR
  set M := S.digest R zero (2 ^ p.full_height - 1) m with hM
  have hlast : lastSig p hash m = List.replicate 4 0xFF ++ (R ++ S.signLayers zero zero 1 0 (2 ^ p.full_height - 1) M) := by
    rw [lastSig, Rfc.Suite.sign, List.append_assoc]
    show List.replicate 4 0xFF ++ List.drop 4 _ = _
    rw [List.drop_left' l1]
    rfl
  have hidx : Rfc.toNat (List.replicate 4 (0xFF : UInt8)) = 2 ^ 32 - 1 := by decide
  simp only [Rfc.Suite.verifyRoot]
  rw [hlast]
  show S.verifyLayers zero 1 0 (Rfc.toNat (List.take 4 _)) (S.digest _ root (Rfc.toNat (List.take 4 _)) m) (List.drop (4 + 32) _) = _
  have d1 : ∀ x : Bytes, List.drop 4 (List.replicate 4 (0xFF : UInt8) ++ x) = x := fun x => List.drop_left' (by simp)
  rw [List.take_left' (by simp), hidx, ← List.drop_drop, d1, List.drop_left' l2]
  generalize S.digest (List.take S.n (List.drop S.idxLen (List.replicate 4 255 ++
    (R ++ S.signLayers zero zero 1 0 (2 ^ p.full_height - 1) M)))) root (2 ^ 32 - 1) m = M'
  simp only [Rfc.Suite.verifyLayers, Rfc.Suite.signLayers, List.append_nil, Rfc.Suite.rootFromSig, hhp]
  have hw : (S.wotsSig zero zero M 0 ((2 ^ p.full_height - 1) / 2 ^ 10) ((2 ^ p.full_height - 1) % 2 ^ 10)).flatten.length =
      S.len * S.n := by
    rw [wotsSig_flat_length g hH]; decide
  rw [List.drop_left' hw]
  have ha : S.authPath zero zero 0 ((2 ^ p.full_height - 1) / 2 ^ 10) ((2 ^ p.full_height - 1) % 2 ^ 10) =
      List.replicate 10 zero := by
    rw [Rfc.Suite.authPath, hhp]
    simp only [node_eq zero (by simp)]
    simp
  rw [ha]
  have hb := blocks_flatten 32 (List.replicate 10 zero) [] (by intro x hx; rw [List.eq_of_mem_replicate hx]; simp)
  rw [List.append_nil, List.length_replicate] at hb
  rw [show S.n = 32 from rfl, hb, show List.replicate 10 zero = List.replicate 9 zero ++ [zero] from rfl,
    climb_append]
  have hodd : children ((2 ^ 32 - 1) % 2 ^ 10) 9 = fun x a => (a, x) := by
    funext x a
    rw [children, if_neg (by decide)]
  simp only [List.length_replicate, hodd]
  exact randHash_eq _ _ _ (by simp)

/-- **C17 (refuted).**  There are a hash function, an honest key and buffers for which signing with the last index
returns 0 but the signature is rejected, for every message. -/
theorem C17_fails (m sm mbuf : Bytes) (l0 : Nat) (hsm : sm.length = p.sig_bytes + m.length)
    (h64 : p.sig_bytes + m.length < 2 ^ 64) (hm : p.sig_bytes + m.length ≤ mbuf.length) :
    key.Valid p ∧ key.Honest S ∧ coreHash prims p.func p.n = some hash ∧
    ∃ o r, xmssSign prims (key.sk p 1 (2 ^ p.full_height - 1)) sm l0 m = some o ∧ o.ret = 0 ∧
      xmssSignOpen prims mbuf l0 o.sm o.smlen (key.pk 1) = some r ∧ r.ret = -1 := by
  have hp : Family.xmss.parse 1 = some p := rfl
  have hH : coreHash prims p.func p.n = some hash := rfl
  have g := toy_good
  have hfit := g.idx_fits
  have hpos : 0 < 2 ^ p.full_height := by positivity
  refine ⟨key_valid, key_honest, hH, ?_⟩
  have h1 := sign_call hp hH key key_valid (2 ^ p.full_height - 1) (by omega) sm l0 m hsm.ge
  simp only [List.drop_of_length_le hsm.le, if_neg (Nat.lt_irrefl (2 ^ p.full_height - 1)), if_true,
    if_pos (show 2 ^ p.full_height - 1 < 2 ^ p.full_height by omega)] at h1
  have hl : (lastSig p hash m).length = p.sig_bytes := by
    rw [lastSig, List.length_append, List.length_drop, sign_length g hash_length, List.length_replicate]
    have := g.sig_eq; omega
  obtain ⟨r, h2, h3, h4⟩ := C23_open_is_rfc hp hH key key_valid.root key_valid.pubSeed (lastSig p hash m) m mbuf l0 hl h64 hm
  refine ⟨_, r, h1, rfl, ?_, ?_⟩
  · simp only [List.append_nil]
    exact h2
  · rcases h3 with h3 | h3
    · exfalso
      have h5 := h4.mp h3
      rw [Rfc.Suite.verify] at h5
      have h6 := verifyRoot_last key.root m
      rw [show key.pubSeed = zero from rfl] at h5
      rw [h5] at h6
      exact absurd h6 (by simp [key, zero, List.replicate_succ])
    · exact h3

/-- C25, non-vacuity: the same signature is a rejected input, and by `C25_rejected_message_remains` the message is still
in the caller's buffer afterwards. -/
theorem C25_fails (m mbuf : Bytes) (l0 : Nat) (hlen : m.length ≤ p.sig_bytes)
    (h64 : p.sig_bytes + m.length < 2 ^ 64) (hm : p.sig_bytes + m.length ≤ mbuf.length) :
    ∃ sig r, xmssSignOpen prims mbuf l0 (sig ++ m) (p.sig_bytes + m.length) (key.pk 1) = some r ∧ r.ret = -1 ∧
      (r.m.drop p.sig_bytes).take m.length = m := by
  have hp : Family.xmss.parse 1 = some p := rfl
  have hH : coreHash prims p.func p.n = some hash := rfl
  have g := toy_good
  have hl : (lastSig p hash m).length = p.sig_bytes := by
    rw [lastSig, List.length_append, List.length_drop, sign_length g hash_length, List.length_replicate]
    have := g.sig_eq; omega
  obtain ⟨_, _, _, o, r, ho, _, hr, hret⟩ := C17_fails m (List.replicate (p.sig_bytes + m.length) 0) mbuf l0
    (by simp) h64 hm
  have h1 := sign_call hp hH key key_valid (2 ^ p.full_height - 1)
    (by have := g.idx_fits; have : 0 < 2 ^ p.full_height := by positivity
        omega)
    (List.replicate (p.sig_bytes + m.length) 0) l0 m (by simp)
  simp only [if_neg (Nat.lt_irrefl (2 ^ p.full_height - 1)), if_true] at h1
  have h1 : xmssSign prims (key.sk p 1 (2 ^ p.full_height - 1)) (List.replicate (p.sig_bytes + m.length) 0) l0 m = _ := h1
  rw [h1] at ho
  cases ho
  simp only [List.drop_replicate, Nat.sub_self, List.replicate_zero, List.append_nil] at hr
  exact ⟨lastSig p hash m, r, hr, hret,
    (C25_rejected_message_remains (f := .xmss) hp key key_valid.root key_valid.pubSeed _ m mbuf l0 r hl h64 hm hr hret).1 hlen⟩

end Xmss.Toy
