import Verif.Props.Params
import Verif.Proof.ShakeLen
import Verif.Proof.Hash
/-
C04 (integers and bytes), C10, C11 (addresses and hash roles), C12 (hash function selection).
-/
namespace Xmss

/-! ### C04 -/

/-- **C04 (write).**  `ull_to_bytes` writes `k` bytes; byte `i` has weight `256^(k-1-i)` (big-endian). -/
theorem C04_big_endian (k x : Nat) :
    (ullToBytes k x).length = k ∧
    ∀ i < k, ((ullToBytes k x).getD i 0).toNat = x / 256 ^ (k - 1 - i) % 256 := by
  rw [ullToBytes_eq]
  refine ⟨toByte_length x k, fun i hi => ?_⟩
  simp [Rfc.toByte, List.getD_eq_getElem?_getD, hi]

/-- **C04 (round trip).**  Reading back what was written gives the integer modulo `256^k`. -/
theorem C04_round_trip (k x : Nat) (hk : k ≤ 8) : bytesToUll (ullToBytes k x) = some (x % 256 ^ k) := by
  rw [bytesToUll_eq (by rw [ullToBytes_length]; exact hk), ullToBytes_eq, toNat_toByte]

/-- **C04 (injective).** -/
theorem C04_injective (k x y : Nat) (hx : x < 256 ^ k) (hy : y < 256 ^ k) (h : ullToBytes k x = ullToBytes k y) :
    x = y := by
  rw [ullToBytes_eq, ullToBytes_eq] at h
  exact toByte_inj hx hy h

/-- **C04 (read).**  Reading is defined exactly for at most 8 bytes, and then writing back what was read restores the
bytes. -/
theorem C04_read (bs : Bytes) :
    (bs.length ≤ 8 → ∃ x < 2 ^ 64, bytesToUll bs = some x ∧ ullToBytes bs.length x = bs) ∧
    (8 < bs.length → bytesToUll bs = none) := by
  constructor
  · intro h
    refine ⟨_, ?_, bytesToUll_eq h, ?_⟩
    · calc Rfc.toNat bs < 256 ^ bs.length := toNat_lt bs
        _ ≤ 256 ^ 8 := Nat.pow_le_pow_right (by decide) h
        _ = 2 ^ 64 := by decide
    · rw [ullToBytes_eq, toByte_toNat]
  · intro h; rw [bytesToUll, if_pos h]

example : ullToBytes 5 0x0102030405 = [1, 2, 3, 4, 5] := by decide
example : bytesToUll [0xff, 0, 0, 0, 0, 0, 0, 1] = some (255 * 2 ^ 56 + 1) := by decide

/-! ### C10 -/

/-- The places where a hash call can happen within one key pair: the PRF calls of WOTS chains, L-tree nodes and tree
nodes.  `km` selects key (0) or mask (1, 2). -/
inductive Place
  | chain (layer tree leaf chain pos km : Nat)
  | ltree (layer tree leaf height index km : Nat)
  | node (layer tree height index km : Nat)
deriving DecidableEq

/-- All coordinates fit their fields: 64 bits for the tree number, 32 bits for the others. -/
def Place.InRange : Place → Prop
  | .chain a t b c d e => a < 2 ^ 32 ∧ t < 2 ^ 64 ∧ b < 2 ^ 32 ∧ c < 2 ^ 32 ∧ d < 2 ^ 32 ∧ e < 2 ^ 32
  | .ltree a t b c d e => a < 2 ^ 32 ∧ t < 2 ^ 64 ∧ b < 2 ^ 32 ∧ c < 2 ^ 32 ∧ d < 2 ^ 32 ∧ e < 2 ^ 32
  | .node a t b c d => a < 2 ^ 32 ∧ t < 2 ^ 64 ∧ b < 2 ^ 32 ∧ c < 2 ^ 32 ∧ d < 2 ^ 32

/-- The address words the C code has when it makes the call: starting from any address, it sets all eight words
(word 4 of a hash tree address is never set: it keeps the 0 of the initialisation). -/
def Place.addr : Place → Addr → Addr
  | .chain layer tree leaf ch pos km, a =>
    setKeyAndMask (setHashAddr (setChainAddr (setOtsAddr (setType (setTreeAddr (setLayerAddr a layer) tree) typeOts)
      leaf) ch) pos) km
  | .ltree layer tree leaf height index km, a =>
    setKeyAndMask (setTreeIndex (setTreeHeight (setLtreeAddr (setType (setTreeAddr (setLayerAddr a layer) tree)
      typeLtree) leaf) height) index) km
  | .node layer tree height index km, a =>
    setKeyAndMask (setTreeIndex (setTreeHeight (setOtsAddr (setType (setTreeAddr (setLayerAddr a layer) tree)
      typeHashtree) 0) height) index) km

theorem addrToBytes_injective {a b : Addr} (h : addrToBytes a = addrToBytes b) : a = b := by
  simp only [addrToBytes_eq, List.append_assoc] at h
  have key : ∀ (x y : UInt32) (r s : Bytes), ullToBytes 4 x.toNat ++ r = ullToBytes 4 y.toNat ++ s → x = y ∧ r = s := by
    intro x y r s h
    obtain ⟨h1, h2⟩ := List.append_inj h (by rw [ullToBytes_length, ullToBytes_length])
    refine ⟨UInt32.toNat_inj.mp (C04_injective 4 _ _ ?_ ?_ h1), h2⟩
    · exact x.toNat_lt
    · exact y.toNat_lt
  obtain ⟨e0, h⟩ := key _ _ _ _ h
  obtain ⟨e1, h⟩ := key _ _ _ _ h
  obtain ⟨e2, h⟩ := key _ _ _ _ h
  obtain ⟨e3, h⟩ := key _ _ _ _ h
  obtain ⟨e4, h⟩ := key _ _ _ _ h
  obtain ⟨e5, h⟩ := key _ _ _ _ h
  obtain ⟨e6, h⟩ := key _ _ _ _ h
  have h7 : ullToBytes 4 a.a7.toNat ++ [] = ullToBytes 4 b.a7.toNat ++ [] := by simpa using h
  obtain ⟨e7, _⟩ := key _ _ _ _ h7
  exact Addr.ext e0 e1 e2 e3 e4 e5 e6 e7

theorem ofNat32_inj {x y : Nat} (hx : x < 2 ^ 32) (hy : y < 2 ^ 32) (h : UInt32.ofNat x = UInt32.ofNat y) : x = y := by
  have := congrArg UInt32.toNat h
  rwa [UInt32.toNat_ofNat_of_lt' hx, UInt32.toNat_ofNat_of_lt' hy] at this

theorem tree_inj {t u : Nat} (ht : t < 2 ^ 64) (hu : u < 2 ^ 64) (h1 : UInt32.ofNat (t >>> 32) = UInt32.ofNat (u >>> 32))
    (h2 : UInt32.ofNat t = UInt32.ofNat u) : t = u := by
  have e1 := ofNat32_inj (by rw [Nat.shiftRight_eq_div_pow]; omega) (by rw [Nat.shiftRight_eq_div_pow]; omega) h1
  have e2 := congrArg UInt32.toNat h2
  simp only [UInt32.toNat_ofNat', Nat.shiftRight_eq_div_pow] at e1 e2
  omega

/-- **C10.**  Two hash calls of one key pair with the same serialised 32-byte address are the same call, whatever
was in the address before (no stale field matters). -/
theorem C10_address_separation (c c' : Place) (a a' : Addr) (hc : c.InRange) (hc' : c'.InRange)
    (h : addrToBytes (c.addr a) = addrToBytes (c'.addr a')) : c = c' := by
  have h := addrToBytes_injective h
  have h3 : (c.addr a).a3 = (c'.addr a').a3 := by rw [h]
  have h0 : (c.addr a).a0 = (c'.addr a').a0 := by rw [h]
  have h1 : (c.addr a).a1 = (c'.addr a').a1 := by rw [h]
  have h2 : (c.addr a).a2 = (c'.addr a').a2 := by rw [h]
  have h4 : (c.addr a).a4 = (c'.addr a').a4 := by rw [h]
  have h5 : (c.addr a).a5 = (c'.addr a').a5 := by rw [h]
  have h6 : (c.addr a).a6 = (c'.addr a').a6 := by rw [h]
  have h7 : (c.addr a).a7 = (c'.addr a').a7 := by rw [h]
  cases c with
  | chain l t b c d e =>
    cases c' with
    | chain l' t' b' c' d' e' =>
      obtain ⟨i0, i1, i2, i3, i4, i5⟩ := hc
      obtain ⟨j0, j1, j2, j3, j4, j5⟩ := hc'
      rw [ofNat32_inj i0 j0 h0, tree_inj i1 j1 h1 h2, ofNat32_inj i2 j2 h4, ofNat32_inj i3 j3 h5,
        ofNat32_inj i4 j4 h6, ofNat32_inj i5 j5 h7]
    | ltree => exact absurd h3 (by decide : (UInt32.ofNat 0) ≠ UInt32.ofNat 1)
    | node => exact absurd h3 (by decide : (UInt32.ofNat 0) ≠ UInt32.ofNat 2)
  | ltree l t b c d e =>
    cases c' with
    | ltree l' t' b' c' d' e' =>
      obtain ⟨i0, i1, i2, i3, i4, i5⟩ := hc
      obtain ⟨j0, j1, j2, j3, j4, j5⟩ := hc'
      rw [ofNat32_inj i0 j0 h0, tree_inj i1 j1 h1 h2, ofNat32_inj i2 j2 h4, ofNat32_inj i3 j3 h5,
        ofNat32_inj i4 j4 h6, ofNat32_inj i5 j5 h7]
    | chain => exact absurd h3 (by decide : (UInt32.ofNat 1) ≠ UInt32.ofNat 0)
    | node => exact absurd h3 (by decide : (UInt32.ofNat 1) ≠ UInt32.ofNat 2)
  | node l t c d e =>
    cases c' with
    | node l' t' c' d' e' =>
      obtain ⟨i0, i1, i3, i4, i5⟩ := hc
      obtain ⟨j0, j1, j3, j4, j5⟩ := hc'
      rw [ofNat32_inj i0 j0 h0, tree_inj i1 j1 h1 h2, ofNat32_inj i3 j3 h5,
        ofNat32_inj i4 j4 h6, ofNat32_inj i5 j5 h7]
    | chain => exact absurd h3 (by decide : (UInt32.ofNat 2) ≠ UInt32.ofNat 0)
    | ltree => exact absurd h3 (by decide : (UInt32.ofNat 2) ≠ UInt32.ofNat 1)

/-- **C10 (the serialised addresses are those of RFC 8391, section 2.5).** -/
theorem C10_rfc_addresses (c : Place) (a : Addr) :
    addrToBytes (c.addr a) = match c with
      | .chain layer tree leaf ch pos km => Rfc.Suite.otsAdrs layer tree leaf ch pos km
      | .ltree layer tree leaf height index km => Rfc.Suite.ltreeAdrs layer tree leaf height index km
      | .node layer tree height index km => Rfc.Suite.treeAdrs layer tree height index km := by
  cases c with
  | chain => exact IsOts.bytes ⟨rfl, rfl, rfl, rfl, rfl⟩ rfl rfl rfl
  | ltree => exact IsLtree.bytes ⟨rfl, rfl, rfl, rfl, rfl⟩ rfl rfl rfl
  | node => exact IsTree.bytes ⟨rfl, rfl, rfl, rfl, rfl⟩ rfl rfl rfl

example : (Place.chain 11 (2 ^ 59) 31 66 14 1).InRange ∧ (Place.node 11 0 4 0 2).InRange := by
  constructor <;> simp [Place.InRange]

/-! ### C11 -/

/-- The byte string hashed in each role. -/
inductive RoleInput (H : Bytes → Bytes) (p : Params) : Fin 5 → Bytes → Prop
  | f (inp pubSeed : Bytes) (a : Addr) : RoleInput H p 0 (thashFInput H p inp pubSeed a).1
  | h (inp pubSeed : Bytes) (a : Addr) : RoleInput H p 1 (thashHInput H p inp pubSeed a).1
  /-- whatever `hash_message` hashes: the bytes of its buffer when it calls the hash -/
  | msg (R root buf buf' dig inp : Bytes) (idx off mlen : Nat) (hR : R.length = p.n) (hroot : root.length = p.n)
      (h : hashMessage H p R root idx buf off mlen = some (dig, buf'))
      (hi : rd buf' off (mlen + p.padding_len + 3 * p.n) = some inp) : RoleInput H p 2 inp
  | prf (inp key : Bytes) : RoleInput H p 3 (prfInput p inp key)
  | prfKeygen (inp key : Bytes) : RoleInput H p 4 (prfKeygenInput p inp key)

theorem wr_prefix {buf buf' bs x : Bytes} {o off len : Nat} (h : wr buf off bs = some buf') (hr : rd buf o len = some x)
    (hle : o + len ≤ off) : rd buf' o len = some x := by
  unfold wr at h
  split at h
  · next hb =>
    cases h
    rw [rd_eq_some_iff] at hr ⊢
    obtain ⟨h1, h2⟩ := hr
    refine ⟨by simp; omega, ?_⟩
    rw [h2, List.append_assoc, List.drop_append_of_le_length (by simp; omega),
      List.take_append_of_le_length (by simp; omega), List.drop_take, List.take_take]
    congr 1; omega
  · cases h

theorem wr_rd_same {buf buf' bs : Bytes} {off : Nat} (h : wr buf off bs = some buf') :
    rd buf' off bs.length = some bs := by
  unfold wr at h
  split at h
  · next hb =>
    cases h
    exact rd_append _ _ _ (by simp; omega) rfl
  · cases h

theorem hashMessage_prefix {H : Bytes → Bytes} {p : Params} {R root buf buf' dig inp : Bytes} {idx off mlen : Nat}
    (h : hashMessage H p R root idx buf off mlen = some (dig, buf'))
    (hi : rd buf' off (mlen + p.padding_len + 3 * p.n) = some inp) :
    dig = H inp ∧ inp.take p.padding_len = Rfc.toByte 2 p.padding_len := by
  unfold hashMessage at h
  simp only [Option.bind_eq_bind, Option.bind_eq_some_iff] at h
  obtain ⟨b1, e1, b2, e2, b3, e3, b4, e4, x, ex, hx⟩ := h
  simp only [Option.some.injEq, Prod.mk.injEq] at hx
  obtain ⟨rfl, rfl⟩ := hx
  rw [ex] at hi
  cases hi
  refine ⟨rfl, ?_⟩
  have r1 := wr_rd_same e1
  rw [ullToBytes_length] at r1
  have r2 := wr_prefix e2 r1 (by omega)
  have r3 := wr_prefix e3 r2 (by omega)
  have r4 := wr_prefix e4 r3 (by omega)
  rw [rd_eq_some_iff] at r4 ex
  rw [ex.2, List.take_take]
  have : min p.padding_len (mlen + p.padding_len + 3 * p.n) = p.padding_len := by omega
  rw [this, ← r4.2, ullToBytes_eq]; rfl

theorem roleInput_prefix {H : Bytes → Bytes} {p : Params} {i : Fin 5} {x : Bytes} (h : RoleInput H p i x) :
    x.take p.padding_len = Rfc.toByte i.val p.padding_len := by
  have key : ∀ (k : Nat) (r : Bytes), (ullToBytes p.padding_len k ++ r).take p.padding_len =
      Rfc.toByte k p.padding_len := by
    intro k r
    rw [List.take_append_of_le_length (by rw [ullToBytes_length]),
      List.take_of_length_le (by rw [ullToBytes_length]), ullToBytes_eq]
  cases h with
  | f => simp only [thashFInput, List.append_assoc]; exact key _ _
  | h => simp only [thashHInput, List.append_assoc]; exact key _ _
  | msg R root buf buf' dig inp idx off mlen hR hroot h hi => exact (hashMessage_prefix h hi).2
  | prf => simp only [prfInput, List.append_assoc]; exact key _ _
  | prfKeygen => simp only [prfKeygenInput, List.append_assoc]; exact key _ _

/-- **C11.**  The strings hashed in the five roles never coincide, whatever the keys, messages, addresses and buffers
(for every parameter structure with at least one byte of padding, in particular for all OIDs). -/
theorem C11_role_separation (H : Bytes → Bytes) (p : Params) (hpad : 0 < p.padding_len) (i j : Fin 5) (x y : Bytes)
    (hx : RoleInput H p i x) (hy : RoleInput H p j y) (h : x = y) : i = j := by
  subst h
  have e := (roleInput_prefix hx).symm.trans (roleInput_prefix hy)
  have hb : ∀ k : Fin 5, k.val < 256 ^ p.padding_len := fun k =>
    calc k.val < 256 ^ 1 := by have := k.isLt; omega
      _ ≤ 256 ^ p.padding_len := Nat.pow_le_pow_right (by decide) hpad
  exact Fin.ext (toByte_inj (hb i) (hb j) e)

/-- C11: the padding is positive for every accepted OID, and what `hash_message` returns is the hash of the string
counted as its role input above. -/
theorem C11_padding (skBytes : Params → Nat) (oid : Nat) (p : Params)
    (h : xmssParseOid skBytes oid = some p ∨ xmssmtParseOid skBytes oid = some p) : 4 ≤ p.padding_len := by
  have hh : ∀ e ∈ Registry.xmss ++ Registry.xmssmt, 4 ≤ e.pad := by decide +kernel
  rcases h with h | h
  · obtain ⟨e, he, _, rfl⟩ := xmss_parse_entry h; exact hh e (by simp [he])
  · obtain ⟨e, he, _, rfl⟩ := xmssmt_parse_entry h; exact hh e (by simp [he])

example (H : Bytes → Bytes) (p : Params) : RoleInput H p 3 (prfInput p [1] [2]) ∧ RoleInput H p 4 (prfKeygenInput p [1] [2]) :=
  ⟨.prf _ _, .prfKeygen _ _⟩

/-! ### C12 -/

/-- **C12.**  Every accepted OID selects a hash function (never the unsupported branch), whose output is exactly `n`
bytes for every input. -/
theorem C12_core_hash (P : Prims) (skBytes : Params → Nat) (oid : Nat) (p : Params)
    (h : xmssParseOid skBytes oid = some p ∨ xmssmtParseOid skBytes oid = some p) :
    ∃ H, coreHash P p.func p.n = some H ∧ ∀ x, (H x).length = p.n := by
  have hh : ∀ e ∈ Registry.xmss ++ Registry.xmssmt,
      (e.n = 24 ∧ funcOf e.family = .sha2) ∨ (e.n = 24 ∧ funcOf e.family = .shake256) ∨
      (e.n = 32 ∧ funcOf e.family = .sha2) ∨ (e.n = 32 ∧ funcOf e.family = .shake128) ∨
      (e.n = 32 ∧ funcOf e.family = .shake256) ∨ (e.n = 64 ∧ funcOf e.family = .sha2) ∨
      (e.n = 64 ∧ funcOf e.family = .shake256) := by decide +kernel
  have key : ∃ e ∈ Registry.xmss ++ Registry.xmssmt, p.n = e.n ∧ p.func = funcOf e.family := by
    rcases h with h | h
    · obtain ⟨e, he, _, rfl⟩ := xmss_parse_entry h; exact ⟨e, by simp [he], rfl, rfl⟩
    · obtain ⟨e, he, _, rfl⟩ := xmssmt_parse_entry h; exact ⟨e, by simp [he], rfl, rfl⟩
  obtain ⟨e, he, hn, hf⟩ := key
  rw [hn, hf]
  rcases hh e he with ⟨h1, h2⟩ | ⟨h1, h2⟩ | ⟨h1, h2⟩ | ⟨h1, h2⟩ | ⟨h1, h2⟩ | ⟨h1, h2⟩ | ⟨h1, h2⟩ <;> rw [h1, h2]
  · exact ⟨_, rfl, fun x => by simp [P.sha256_length]⟩
  · exact ⟨_, rfl, fun x => shake256_length _ _⟩
  · exact ⟨_, rfl, P.sha256_length⟩
  · exact ⟨_, rfl, fun x => shake128_length _ _⟩
  · exact ⟨_, rfl, fun x => shake256_length _ _⟩
  · exact ⟨_, rfl, P.sha512_length⟩
  · exact ⟨_, rfl, fun x => shake256_length _ _⟩

end Xmss
