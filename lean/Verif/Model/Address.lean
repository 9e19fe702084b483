/-
Model of hash_address.c / hash_address.h.
-/
namespace Xmss

/-- `uint32_t addr[8]`, hash_address.h:10-35.  The eight words are named fields. -/
@[ext] structure Addr where
  a0 : UInt32
  a1 : UInt32
  a2 : UInt32
  a3 : UInt32
  a4 : UInt32
  a5 : UInt32
  a6 : UInt32
  a7 : UInt32
deriving DecidableEq, Repr

/-- `uint32_t addr[8] = {0}`, e.g. xmss_core.c:34. -/
def Addr.zero : Addr := ⟨0, 0, 0, 0, 0, 0, 0, 0⟩

/-- The words in array order (as traversed by `addr_to_bytes`, hash.c:20-22). -/
def Addr.words (a : Addr) : List UInt32 := [a.a0, a.a1, a.a2, a.a3, a.a4, a.a5, a.a6, a.a7]

/-- `XMSS_ADDR_TYPE_OTS`, hash_address.h:6. -/
def typeOts : Nat := 0
/-- `XMSS_ADDR_TYPE_LTREE`, hash_address.h:7. -/
def typeLtree : Nat := 1
/-- `XMSS_ADDR_TYPE_HASHTREE`, hash_address.h:8. -/
def typeHashtree : Nat := 2

/-- `set_layer_addr`, hash_address.c:3-6.  (All setters convert their argument to `uint32_t`.) -/
def setLayerAddr (a : Addr) (layer : Nat) : Addr := { a with a0 := UInt32.ofNat layer }

/-- `set_tree_addr`, hash_address.c:8-12. -/
def setTreeAddr (a : Addr) (tree : Nat) : Addr :=
  { a with a1 := UInt32.ofNat (tree >>> 32), a2 := UInt32.ofNat tree }

/-- `set_type`, hash_address.c:14-17. -/
def setType (a : Addr) (type : Nat) : Addr := { a with a3 := UInt32.ofNat type }

/-- `set_key_and_mask`, hash_address.c:19-22. -/
def setKeyAndMask (a : Addr) (km : Nat) : Addr := { a with a7 := UInt32.ofNat km }

/-- `copy_subtree_addr`, hash_address.c:24-29. -/
def copySubtreeAddr (out inp : Addr) : Addr := { out with a0 := inp.a0, a1 := inp.a1, a2 := inp.a2 }

/-- `set_ots_addr`, hash_address.c:33-36. -/
def setOtsAddr (a : Addr) (ots : Nat) : Addr := { a with a4 := UInt32.ofNat ots }

/-- `set_chain_addr`, hash_address.c:38-41. -/
def setChainAddr (a : Addr) (chain : Nat) : Addr := { a with a5 := UInt32.ofNat chain }

/-- `set_hash_addr`, hash_address.c:43-46. -/
def setHashAddr (a : Addr) (hash : Nat) : Addr := { a with a6 := UInt32.ofNat hash }

/-- `set_ltree_addr`, hash_address.c:50-53. -/
def setLtreeAddr (a : Addr) (ltree : Nat) : Addr := { a with a4 := UInt32.ofNat ltree }

/-- `set_tree_height`, hash_address.c:57-60. -/
def setTreeHeight (a : Addr) (h : Nat) : Addr := { a with a5 := UInt32.ofNat h }

/-- `set_tree_index`, hash_address.c:62-65. -/
def setTreeIndex (a : Addr) (i : Nat) : Addr := { a with a6 := UInt32.ofNat i }

end Xmss
