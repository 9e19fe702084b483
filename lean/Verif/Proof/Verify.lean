import Verif.Props.Tree
/-
Completeness of the RFC verification algorithm on the RFC signatures (specification level), and where the parts of a
signature are.
-/
namespace Xmss

variable {p : Params} {H : Bytes → Bytes}

theorem sibling_children (S : Rfc.Suite) (sk seed : Bytes) (l t i k : Nat) :
    children i k (S.node sk seed l t k (i / 2 ^ k)) (S.node sk seed l t k (Rfc.Suite.sibling (i / 2 ^ k))) =
      (S.node sk seed l t k (2 * (i / 2 ^ (k + 1))), S.node sk seed l t k (2 * (i / 2 ^ (k + 1)) + 1)) := by
  have e : i / 2 ^ (k + 1) = i / 2 ^ k / 2 := by rw [pow_succ, Nat.div_div_eq_div_mul]
  rw [e]
  unfold children Rfc.Suite.sibling
  by_cases h : i / 2 ^ k % 2 = 0
  · rw [if_pos h, if_pos h]
    have : 2 * (i / 2 ^ k / 2) = i / 2 ^ k := by omega
    rw [this]
  · rw [if_neg h, if_neg h]
    have : 2 * (i / 2 ^ k / 2) = i / 2 ^ k - 1 := by omega
    rw [this, Nat.sub_add_cancel (by omega)]

theorem pathNode_honest (S : Rfc.Suite) (sk seed : Bytes) (l t i : Nat) : ∀ k ≤ S.hp,
    pathNode S seed l t i (S.leaf sk seed l t i) (S.authPath sk seed l t i) k = S.node sk seed l t k (i / 2 ^ k) := by
  intro k
  induction k with
  | zero => intro _; simp [pathNode, Rfc.Suite.climb, Rfc.Suite.node]
  | succ k ih =>
    intro hk
    have hl : k < (S.authPath sk seed l t i).length := by simp [Rfc.Suite.authPath]; omega
    have ha : (S.authPath sk seed l t i).getD k [] = S.node sk seed l t k (Rfc.Suite.sibling (i / 2 ^ k)) := by
      rw [List.getD_eq_getElem?_getD, List.getElem?_eq_getElem hl]
      simp [Rfc.Suite.authPath]
    rw [pathNode_succ _ _ _ _ _ _ _ _ hl, ih (by omega), ha]
    simp only [sibling_children]
    rw [Rfc.Suite.node]

theorem climb_honest (S : Rfc.Suite) (sk seed : Bytes) (l t i : Nat) (hi : i < 2 ^ S.hp) :
    S.climb seed l t 0 i (S.leaf sk seed l t i) (S.authPath sk seed l t i) = S.treeRoot sk seed l t := by
  have h := pathNode_honest S sk seed l t i S.hp (Nat.le_refl _)
  rw [Nat.div_eq_of_lt hi, pathNode, List.take_of_length_le (by simp [Rfc.Suite.authPath])] at h
  exact h

theorem rootFromSig_honest (S : Rfc.Suite) (hw : 0 < S.w) (sk seed M : Bytes) (l t i : Nat) (hi : i < 2 ^ S.hp) :
    S.rootFromSig seed l t i (S.wotsSig sk seed M l t i) (S.authPath sk seed l t i) M = S.treeRoot sk seed l t := by
  rw [Rfc.Suite.rootFromSig, wotsPkFromSig_wotsSig S hw]
  exact climb_honest S sk seed l t i hi

theorem blocks_flatten (n : Nat) : ∀ (L : List Bytes) (rest : Bytes), (∀ x ∈ L, x.length = n) →
    Rfc.blocks n L.length (L.flatten ++ rest) = L := by
  intro L
  induction L with
  | nil => intro rest _; rfl
  | cons x L ih =>
    intro rest h
    have hx : x.length = n := h x (by simp)
    rw [← chunks_eq_blocks]
    simp only [List.length_cons, List.flatten_cons, List.append_assoc, chunks, List.cons.injEq]
    refine ⟨List.take_left' hx, ?_⟩
    rw [List.drop_left' hx, chunks_eq_blocks]
    exact ih rest fun y hy => h y (by simp [hy])

/-- Where the verifier ends when it is given the layers of an honest signature. -/
theorem verifyLayers_signLayers (g : p.Good) (hH : ∀ x, (H x).length = p.n) (sk seed : Bytes) :
    ∀ (k l idx : Nat) (M rest : Bytes), 
      (suiteOf p H).verifyLayers seed (k + 1) l idx M ((suiteOf p H).signLayers sk seed (k + 1) l idx M ++ rest) =
        (suiteOf p H).treeRoot sk seed (l + k) (idx / 2 ^ (p.tree_height * (k + 1))) := by
  set S := suiteOf p H with hS
  have hhp : S.hp = p.tree_height := g.hp_eq H
  have hlen : S.len = p.wots_len := g.len_eq' H
  have hn : S.n = p.n := rfl
  have hw : 0 < S.w := g.w_pos
  have step : ∀ (l idx : Nat) (M rest : Bytes),
      S.rootFromSig seed l (idx / 2 ^ S.hp) (idx % 2 ^ S.hp)
        (Rfc.blocks S.n S.len ((S.wotsSig sk seed M l (idx / 2 ^ S.hp) (idx % 2 ^ S.hp)).flatten ++
          ((S.authPath sk seed l (idx / 2 ^ S.hp) (idx % 2 ^ S.hp)).flatten ++ rest)))
        (Rfc.blocks S.n S.hp (((S.wotsSig sk seed M l (idx / 2 ^ S.hp) (idx % 2 ^ S.hp)).flatten ++
          ((S.authPath sk seed l (idx / 2 ^ S.hp) (idx % 2 ^ S.hp)).flatten ++ rest)).drop (S.len * S.n))) M =
      S.treeRoot sk seed l (idx / 2 ^ S.hp) ∧
      ((S.wotsSig sk seed M l (idx / 2 ^ S.hp) (idx % 2 ^ S.hp)).flatten ++
          ((S.authPath sk seed l (idx / 2 ^ S.hp) (idx % 2 ^ S.hp)).flatten ++ rest)).drop ((S.len + S.hp) * S.n) = rest := by
    intro l idx M rest
    set t := idx / 2 ^ S.hp
    set i := idx % 2 ^ S.hp with hi
    have f1 : (S.wotsSig sk seed M l t i).flatten.length = S.len * S.n := by
      rw [wotsSig_flat_length g hH, hlen, hn]
    have f2 : (S.authPath sk seed l t i).flatten.length = S.hp * S.n := by
      rw [authPath_flat_length g hH, hhp, hn]
    constructor
    · have b1 := blocks_flatten S.n (S.wotsSig sk seed M l t i) ((S.authPath sk seed l t i).flatten ++ rest)
        (by
          intro x hx
          exact wotsSig_mem_len S hH _ _ _ _ _ _ x hx)
      have b2 := blocks_flatten S.n (S.authPath sk seed l t i) rest (authPath_mem_length g hH _ _ _ _ _)
      rw [show (S.wotsSig sk seed M l t i).length = S.len by simp [Rfc.Suite.wotsSig]] at b1
      rw [show (S.authPath sk seed l t i).length = S.hp by simp [Rfc.Suite.authPath]] at b2
      rw [List.drop_left' f1, b1, b2]
      exact rootFromSig_honest S hw _ _ _ _ _ _ (Nat.mod_lt _ (by positivity))
    · rw [Nat.add_mul, ← List.drop_drop, List.drop_left' f1, List.drop_left' f2]
  intro k
  induction k with
  | zero =>
    intro l idx M rest
    have h := step l idx M rest
    simp only [Rfc.Suite.verifyLayers, Rfc.Suite.signLayers, List.append_assoc, List.append_nil]
    rw [h.1]
    simp [hhp]
  | succ k ih =>
    intro l idx M rest
    rw [Rfc.Suite.verifyLayers, Rfc.Suite.signLayers]
    simp only [List.append_assoc]
    have h := step l idx M (S.signLayers sk seed (k + 1) (l + 1) (idx / 2 ^ S.hp) (S.treeRoot sk seed l (idx / 2 ^ S.hp)) ++ rest)
    rw [h.1, h.2, ih (l + 1) (idx / 2 ^ S.hp)]
    congr 1
    · omega
    · rw [Nat.div_div_eq_div_mul, hhp, ← pow_add]; congr 2; ring

/-- The verifier applied to an honest signature with any index (also one outside the tree) computes the root of the top
layer tree the index belongs to. -/
theorem verifyRoot_sign (g : p.Good) (hH : ∀ x, (H x).length = p.n) (skSeed skPrf root seed M : Bytes) (idx : Nat)
    (hidx : idx < 256 ^ p.index_bytes) :
    (suiteOf p H).verifyRoot root seed M ((suiteOf p H).sign skSeed skPrf root seed idx M) =
      (suiteOf p H).treeRoot skSeed seed (p.d - 1) (idx / 2 ^ p.full_height) := by
  have hd := g.d_pos
  have l1 : (Rfc.toByte idx (suiteOf p H).idxLen).length = (suiteOf p H).idxLen := toByte_length _ _
  have l2 : ((suiteOf p H).PRF skPrf (Rfc.toByte idx 32)).length = (suiteOf p H).n := hH _
  simp only [Rfc.Suite.verifyRoot, Rfc.Suite.sign, List.append_assoc]
  rw [List.take_left' l1, List.drop_left' l1, List.take_left' l2, ← List.drop_drop, List.drop_left' l1,
    List.drop_left' l2, toNat_toByte, Nat.mod_eq_of_lt (show idx < 256 ^ (suiteOf p H).idxLen from hidx)]
  have h := verifyLayers_signLayers g hH skSeed seed (p.d - 1) 0 idx
    ((suiteOf p H).digest ((suiteOf p H).PRF skPrf (Rfc.toByte idx 32)) root idx M) []
  rw [Nat.sub_add_cancel hd, List.append_nil, Nat.zero_add, g.height] at h
  exact h

end Xmss
