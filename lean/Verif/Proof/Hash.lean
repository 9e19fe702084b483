import Verif.Proof.Good
/-
The model's hash calls are the RFC's hash calls: mutable addresses versus named addresses.
-/
namespace Xmss

theorem toByte4_uint32 (x : Nat) : ullToBytes 4 (UInt32.ofNat x).toNat = Rfc.toByte x 4 := by
  rw [ullToBytes_eq, ← toByte_mod x 4]
  congr 1

theorem toByte8 (x : Nat) : Rfc.toByte (x >>> 32) 4 ++ Rfc.toByte x 4 = Rfc.toByte x 8 := by
  apply toNat_injective
  · simp [toByte_length]
  · rw [toNat_append, toNat_toByte, toNat_toByte, toNat_toByte, toByte_length, Nat.shiftRight_eq_div_pow]
    norm_num
    omega

/-- Words 0-4 of an OTS address. -/
structure IsOts (a : Addr) (layer tree ots : Nat) : Prop where
  h0 : a.a0 = UInt32.ofNat layer
  h1 : a.a1 = UInt32.ofNat (tree >>> 32)
  h2 : a.a2 = UInt32.ofNat tree
  h3 : a.a3 = UInt32.ofNat 0
  h4 : a.a4 = UInt32.ofNat ots

/-- Words 0-4 of an L-tree address. -/
structure IsLtree (a : Addr) (layer tree ltree : Nat) : Prop where
  h0 : a.a0 = UInt32.ofNat layer
  h1 : a.a1 = UInt32.ofNat (tree >>> 32)
  h2 : a.a2 = UInt32.ofNat tree
  h3 : a.a3 = UInt32.ofNat 1
  h4 : a.a4 = UInt32.ofNat ltree

/-- Words 0-4 of a hash tree address. -/
structure IsTree (a : Addr) (layer tree : Nat) : Prop where
  h0 : a.a0 = UInt32.ofNat layer
  h1 : a.a1 = UInt32.ofNat (tree >>> 32)
  h2 : a.a2 = UInt32.ofNat tree
  h3 : a.a3 = UInt32.ofNat 2
  h4 : a.a4 = UInt32.ofNat 0

theorem addrToBytes_eq (a : Addr) : addrToBytes a =
    ullToBytes 4 a.a0.toNat ++ ullToBytes 4 a.a1.toNat ++ ullToBytes 4 a.a2.toNat ++ ullToBytes 4 a.a3.toNat ++
    ullToBytes 4 a.a4.toNat ++ ullToBytes 4 a.a5.toNat ++ ullToBytes 4 a.a6.toNat ++ ullToBytes 4 a.a7.toNat := by
  simp [addrToBytes, Addr.words]

theorem IsOts.bytes {a : Addr} {layer tree ots chain hash km : Nat} (h : IsOts a layer tree ots)
    (h5 : a.a5 = UInt32.ofNat chain) (h6 : a.a6 = UInt32.ofNat hash) (h7 : a.a7 = UInt32.ofNat km) :
    addrToBytes a = Rfc.Suite.otsAdrs layer tree ots chain hash km := by
  rw [addrToBytes_eq, h.h0, h.h1, h.h2, h.h3, h.h4, h5, h6, h7]
  simp only [toByte4_uint32, Rfc.Suite.otsAdrs, ← toByte8 tree, List.append_assoc]

theorem IsLtree.bytes {a : Addr} {layer tree lt height index km : Nat} (h : IsLtree a layer tree lt)
    (h5 : a.a5 = UInt32.ofNat height) (h6 : a.a6 = UInt32.ofNat index) (h7 : a.a7 = UInt32.ofNat km) :
    addrToBytes a = Rfc.Suite.ltreeAdrs layer tree lt height index km := by
  rw [addrToBytes_eq, h.h0, h.h1, h.h2, h.h3, h.h4, h5, h6, h7]
  simp only [toByte4_uint32, Rfc.Suite.ltreeAdrs, ← toByte8 tree, List.append_assoc]

theorem IsTree.bytes {a : Addr} {layer tree height index km : Nat} (h : IsTree a layer tree)
    (h5 : a.a5 = UInt32.ofNat height) (h6 : a.a6 = UInt32.ofNat index) (h7 : a.a7 = UInt32.ofNat km) :
    addrToBytes a = Rfc.Suite.treeAdrs layer tree height index km := by
  rw [addrToBytes_eq, h.h0, h.h1, h.h2, h.h3, h.h4, h5, h6, h7]
  simp only [toByte4_uint32, Rfc.Suite.treeAdrs, ← toByte8 tree, List.append_assoc]

theorem addrToBytes_length (a : Addr) : (addrToBytes a).length = 32 := by
  simp [addrToBytes_eq, ullToBytes_length]

variable {H : Bytes → Bytes} {p : Params}

theorem prf_eq (inp key : Bytes) : prf H p inp key = (suiteOf p H).PRF key inp := by
  simp only [prf, prfInput, Rfc.Suite.PRF, ullToBytes_eq, padPrf]; rfl

theorem prfKeygen_eq (inp key : Bytes) : prfKeygen H p inp key = (suiteOf p H).PRFkeygen key inp := by
  simp only [prfKeygen, prfKeygenInput, Rfc.Suite.PRFkeygen, ullToBytes_eq, padPrfKeygen]; rfl

theorem xorBytes_append {a b c d : Bytes} (h : a.length = c.length) :
    xorBytes (a ++ b) (c ++ d) = Rfc.xor a c ++ Rfc.xor b d := by
  simp [xorBytes, Rfc.xor, List.zipWith_append h]

/-- The address left behind by `thash_h`. -/
theorem thashH_addr (inp pubSeed : Bytes) (a : Addr) : (thashH H p inp pubSeed a).2 = { a with a7 := 2 } := rfl
/-- The address left behind by `thash_f`. -/
theorem thashF_addr (inp pubSeed : Bytes) (a : Addr) : (thashF H p inp pubSeed a).2 = { a with a7 := 1 } := rfl

theorem thashH_ltree {a : Addr} {layer tree lt height index : Nat} (h : IsLtree a layer tree lt)
    (h5 : a.a5 = UInt32.ofNat height) (h6 : a.a6 = UInt32.ofNat index) (hH : ∀ x, (H x).length = p.n)
    {l r : Bytes} (hl : l.length = p.n) (pubSeed : Bytes) :
    (thashH H p (l ++ r) pubSeed a).1 =
      (suiteOf p H).randHash pubSeed (Rfc.Suite.ltreeAdrs layer tree lt height index) l r := by
  have hk : ∀ km, addrToBytes (setKeyAndMask a km) = Rfc.Suite.ltreeAdrs layer tree lt height index km :=
    fun km => IsLtree.bytes ⟨h.h0, h.h1, h.h2, h.h3, h.h4⟩ h5 h6 rfl
  show H (ullToBytes p.padding_len padH ++ prf H p (addrToBytes (setKeyAndMask a 0)) pubSeed ++
    xorBytes (l ++ r) (prf H p (addrToBytes (setKeyAndMask a 1)) pubSeed ++
      prf H p (addrToBytes (setKeyAndMask a 2)) pubSeed)) = _
  rw [hk, hk, hk, prf_eq, prf_eq, prf_eq, xorBytes_append (by rw [hl]; exact (hH _).symm), ullToBytes_eq]
  rfl

theorem thashH_tree {a : Addr} {layer tree height index : Nat} (h : IsTree a layer tree)
    (h5 : a.a5 = UInt32.ofNat height) (h6 : a.a6 = UInt32.ofNat index) (hH : ∀ x, (H x).length = p.n)
    {l r : Bytes} (hl : l.length = p.n) (pubSeed : Bytes) :
    (thashH H p (l ++ r) pubSeed a).1 =
      (suiteOf p H).randHash pubSeed (Rfc.Suite.treeAdrs layer tree height index) l r := by
  have hk : ∀ km, addrToBytes (setKeyAndMask a km) = Rfc.Suite.treeAdrs layer tree height index km :=
    fun km => IsTree.bytes ⟨h.h0, h.h1, h.h2, h.h3, h.h4⟩ h5 h6 rfl
  show H (ullToBytes p.padding_len padH ++ prf H p (addrToBytes (setKeyAndMask a 0)) pubSeed ++
    xorBytes (l ++ r) (prf H p (addrToBytes (setKeyAndMask a 1)) pubSeed ++
      prf H p (addrToBytes (setKeyAndMask a 2)) pubSeed)) = _
  rw [hk, hk, hk, prf_eq, prf_eq, prf_eq, xorBytes_append (by rw [hl]; exact (hH _).symm), ullToBytes_eq]
  rfl

theorem thashF_ots {a : Addr} {layer tree ots chain pos : Nat} (h : IsOts a layer tree ots)
    (h5 : a.a5 = UInt32.ofNat chain) (h6 : a.a6 = UInt32.ofNat pos) (x pubSeed : Bytes) :
    (thashF H p x pubSeed a).1 =
      (suiteOf p H).chainStep pubSeed (Rfc.Suite.otsAdrs layer tree ots chain) pos x := by
  have hk : ∀ km, addrToBytes (setKeyAndMask a km) = Rfc.Suite.otsAdrs layer tree ots chain pos km :=
    fun km => IsOts.bytes ⟨h.h0, h.h1, h.h2, h.h3, h.h4⟩ h5 h6 rfl
  show H (ullToBytes p.padding_len padF ++ prf H p (addrToBytes (setKeyAndMask a 0)) pubSeed ++
    xorBytes x (prf H p (addrToBytes (setKeyAndMask a 1)) pubSeed)) = _
  rw [hk, hk, prf_eq, prf_eq, ullToBytes_eq]
  rfl

end Xmss
