import Verif.Props.History
/-
C28 and the positive part of C29: what acceptance under an honest public key implies.
-/
namespace Xmss

variable {P : Prims} {f : Family} {oid : Nat} {p : Params} {H : Bytes → Bytes}

section received
variable (S : Rfc.Suite) (seed : Bytes) (idx : Nat)

/-- Length of the part of a signature that belongs to one layer. -/
def partLen : Nat := (S.len + S.hp) * S.n
/-- Number of the tree on layer `i` that index `idx` belongs to. -/
def treeOn (i : Nat) : Nat := idx / 2 ^ (S.hp * (i + 1))
/-- Number of the leaf used on layer `i`. -/
def leafOn (i : Nat) : Nat := idx / 2 ^ (S.hp * i) % 2 ^ S.hp
/-- The WOTS signature received for layer `i`; `body` is the signature without index and R. -/
def recvSig (body : Bytes) (i : Nat) : List Bytes := Rfc.blocks S.n S.len (body.drop (i * partLen S))
/-- The authentication path received for layer `i`. -/
def recvAuth (body : Bytes) (i : Nat) : List Bytes :=
  Rfc.blocks S.n S.hp ((body.drop (i * partLen S)).drop (S.len * S.n))
/-- The value that the WOTS signature of layer `i` is checked against: the message digest `M` on layer 0, the root
computed on layer `i - 1` otherwise. -/
def recvMsg (body M : Bytes) : Nat → Bytes
  | 0 => M
  | i + 1 => S.rootFromSig seed i (treeOn S idx i) (leafOn S idx i) (recvSig S body i) (recvAuth S body i)
      (recvMsg body M i)
/-- The WOTS public key computed on layer `i`. -/
def recvPk (body M : Bytes) (i : Nat) : List Bytes :=
  S.wotsPkFromSig seed (recvMsg S seed idx body M i) (recvSig S body i) i (treeOn S idx i) (leafOn S idx i)
/-- The leaf computed on layer `i`. -/
def recvLeaf (body M : Bytes) (i : Nat) : Bytes :=
  S.ltree seed i (treeOn S idx i) (leafOn S idx i) (recvPk S seed idx body M i)

theorem recvMsg_succ (body M : Bytes) (i : Nat) :
    recvMsg S seed idx body M (i + 1) =
      S.climb seed i (treeOn S idx i) 0 (leafOn S idx i) (recvLeaf S seed idx body M i) (recvAuth S body i) := rfl

theorem verifyLayers_recv (body M : Bytes) : ∀ k l,
    S.verifyLayers seed k l (idx / 2 ^ (S.hp * l)) (recvMsg S seed idx body M l) (body.drop (l * partLen S)) =
      recvMsg S seed idx body M (l + k) := by
  intro k
  induction k with
  | zero => intro l; rfl
  | succ k ih =>
    intro l
    have e : idx / 2 ^ (S.hp * l) / 2 ^ S.hp = idx / 2 ^ (S.hp * (l + 1)) := by
      rw [Nat.div_div_eq_div_mul, ← pow_add]; rfl
    have h := ih (l + 1)
    rw [Rfc.Suite.verifyLayers]
    simp only [e]
    have ed : ((body.drop (l * partLen S)).drop ((S.len + S.hp) * S.n)) = body.drop ((l + 1) * partLen S) := by
      rw [List.drop_drop, show l * partLen S + (S.len + S.hp) * S.n = (l + 1) * partLen S by rw [partLen]; ring]
    rw [ed, show l + (k + 1) = l + 1 + k by omega, ← h]
    rfl
end received

/-- The tree of layer `i` contains an explicit collision of the tree hash: at some height the children computed from
the received bytes and the key's own children differ but have the same parent. -/
def TreePathCollision (S : Rfc.Suite) (k : Key) (idx : Nat) (body M : Bytes) (i : Nat) : Prop :=
  ∃ h < S.hp, TreeCollision S k.pubSeed
    (Rfc.Suite.treeAdrs i (treeOn S idx i) h (leafOn S idx i / 2 ^ (h + 1)))
    (children (leafOn S idx i) h
      (pathNode S k.pubSeed i (treeOn S idx i) (leafOn S idx i) (recvLeaf S k.pubSeed idx body M i) (recvAuth S body i) h)
      ((recvAuth S body i).getD h []))
    (children (leafOn S idx i) h
      (S.node k.skSeed k.pubSeed i (treeOn S idx i) h (leafOn S idx i / 2 ^ h))
      (S.node k.skSeed k.pubSeed i (treeOn S idx i) h (Rfc.Suite.sibling (leafOn S idx i / 2 ^ h))))

/-- The L-tree of layer `i` contains an explicit collision between the received and the key's own WOTS public key. -/
def LtreeCollision (S : Rfc.Suite) (k : Key) (idx : Nat) (body M : Bytes) (i : Nat) : Prop :=
  let rowR := ltreeRowAt S k.pubSeed i (treeOn S idx i) (leafOn S idx i) (recvPk S k.pubSeed idx body M i)
  let rowK := ltreeRowAt S k.pubSeed i (treeOn S idx i) (leafOn S idx i)
    (S.wotsPk k.skSeed k.pubSeed i (treeOn S idx i) (leafOn S idx i))
  ∃ h j, TreeCollision S k.pubSeed (Rfc.Suite.ltreeAdrs i (treeOn S idx i) (leafOn S idx i) h j)
    ((rowR h).getD (2 * j) [], (rowR h).getD (2 * j + 1) []) ((rowK h).getD (2 * j) [], (rowK h).getD (2 * j + 1) [])

/-- On layer `i` the received signature checks against the key's own WOTS public key. -/
def OwnWotsKey (S : Rfc.Suite) (k : Key) (idx : Nat) (body M : Bytes) (i : Nat) : Prop :=
  recvPk S k.pubSeed idx body M i = S.wotsPk k.skSeed k.pubSeed i (treeOn S idx i) (leafOn S idx i)

/-- A layer on which the root arrives right: collision, or the WOTS key is the key's own. -/
theorem layer_binding (S : Rfc.Suite) (hlen : 0 < S.len) (k : Key) (idx : Nat) (body M : Bytes) (i : Nat)
    (h : recvMsg S k.pubSeed idx body M (i + 1) = S.treeRoot k.skSeed k.pubSeed i (treeOn S idx i)) :
    TreePathCollision S k idx body M i ∨ LtreeCollision S k idx body M i ∨ OwnWotsKey S k idx body M i := by
  have hleaf : leafOn S idx i < 2 ^ S.hp := Nat.mod_lt _ (by positivity)
  have la : (recvAuth S body i).length = S.hp := by simp [recvAuth, Rfc.blocks]
  have lb : (S.authPath k.skSeed k.pubSeed i (treeOn S idx i) (leafOn S idx i)).length = S.hp := by
    simp [Rfc.Suite.authPath]
  have hc := climb_collision S k.pubSeed i (treeOn S idx i) (leafOn S idx i) (recvLeaf S k.pubSeed idx body M i)
    (S.leaf k.skSeed k.pubSeed i (treeOn S idx i) (leafOn S idx i)) (recvAuth S body i)
    (S.authPath k.skSeed k.pubSeed i (treeOn S idx i) (leafOn S idx i)) (la.trans lb.symm) S.hp la.ge (by
      rw [pathNode_honest _ _ _ _ _ _ _ (Nat.le_refl _), Nat.div_eq_of_lt hleaf, pathNode,
        List.take_of_length_le la.le]
      exact h)
  rcases hc with hc | ⟨h', hh', hc⟩
  · have hlt := ltree_collision S k.pubSeed i (treeOn S idx i) (leafOn S idx i) (recvPk S k.pubSeed idx body M i)
      (S.wotsPk k.skSeed k.pubSeed i (treeOn S idx i) (leafOn S idx i))
      (by simp [recvPk, Rfc.Suite.wotsPkFromSig, Rfc.Suite.wotsPk])
      (by simpa [recvPk, Rfc.Suite.wotsPkFromSig] using hlen) hc
    rcases hlt with hlt | ⟨a, b, hlt⟩
    · exact Or.inr (Or.inr hlt)
    · exact Or.inr (Or.inl ⟨a, b, hlt⟩)
  · refine Or.inl ⟨h', hh', ?_⟩
    rw [pathNode_honest _ _ _ _ _ _ _ (by omega)] at hc
    have ha : (S.authPath k.skSeed k.pubSeed i (treeOn S idx i) (leafOn S idx i)).getD h' [] =
        S.node k.skSeed k.pubSeed i (treeOn S idx i) h' (Rfc.Suite.sibling (leafOn S idx i / 2 ^ h')) := by
      rw [List.getD_eq_getElem?_getD, List.getElem?_eq_getElem (by omega)]
      simp [Rfc.Suite.authPath]
    rw [ha] at hc
    exact hc

/-- **C28.**  If open accepts a signature with an index below `2^h` under an honestly generated public key, then one of
the following can be read off the accepted bytes and the key:
* on some layer, an explicit collision of the tree hash or of the L-tree hash;
* on some layer above 0, a WOTS forgery: the key's own WOTS public key of that layer was verified against a value
  different from the subtree root that the key signs there (C09 turns this into a chain preimage or collision);
* on every layer the WOTS public key is the key's own, and every value verified above layer 0 is the honest root: so
  the message digest itself was verified with the key's own WOTS key number `idx` on layer 0. -/
theorem C28_acceptance_binds (hp : f.parse oid = some p) (hH : coreHash P p.func p.n = some H) (k : Key) (hk : k.Valid p)
    (hh : k.Honest (suiteOf p H)) (sig msg m : Bytes) (l0 : Nat) (hs : sig.length = p.sig_bytes)
    (h64 : p.sig_bytes + msg.length < 2 ^ 64) (hm : p.sig_bytes + msg.length ≤ m.length) (r : OpenOut)
    (hr : f.signOpen P m l0 (sig ++ msg) (p.sig_bytes + msg.length) (k.pk oid) = some r) (hacc : r.ret = 0)
    (hidx : Rfc.toNat (sig.take p.index_bytes) < 2 ^ p.full_height) :
    let S := suiteOf p H
    let idx := Rfc.toNat (sig.take p.index_bytes)
    let body := sig.drop (p.index_bytes + p.n)
    let M := S.digest ((sig.drop p.index_bytes).take p.n) k.root idx msg
    (∃ i < p.d, TreePathCollision S k idx body M i ∨ LtreeCollision S k idx body M i) ∨
    (∃ i, 0 < i ∧ i < p.d ∧ OwnWotsKey S k idx body M i ∧
      recvMsg S k.pubSeed idx body M i ≠ S.treeRoot k.skSeed k.pubSeed (i - 1) (treeOn S idx (i - 1))) ∨
    ((∀ i < p.d, OwnWotsKey S k idx body M i) ∧
      ∀ i < p.d, 0 < i → recvMsg S k.pubSeed idx body M i = S.treeRoot k.skSeed k.pubSeed (i - 1) (treeOn S idx (i - 1))) := by
  intro S idx body M
  obtain ⟨g, hskb, ho, _⟩ := Family.facts (P := P) hp
  have hHl := Family.hash_length hp hH
  obtain ⟨r', h1, _, h3⟩ := C23_open_is_rfc hp hH k hk.root hk.pubSeed sig msg m l0 hs h64 hm
  rw [hr] at h1
  cases h1
  have hver := h3.mp hacc
  have hd := g.d_pos
  have hhp : S.hp = p.tree_height := g.hp_eq H
  have hlenp : 0 < S.len := by rw [show S.len = p.wots_len from g.len_eq' H]; exact g.len_pos
  -- the root computed on the top layer is the honest one
  have htop : recvMsg S k.pubSeed idx body M p.d = k.root := by
    have h := verifyLayers_recv S k.pubSeed idx body M p.d 0
    simp only [Nat.mul_zero, pow_zero, Nat.div_one, Nat.zero_mul, List.drop_zero, Nat.zero_add] at h
    rw [← h]
    exact hver
  have htree : treeOn S idx (p.d - 1) = 0 := by
    rw [treeOn, Nat.sub_add_cancel hd, hhp, g.height]
    exact Nat.div_eq_of_lt hidx
  have htop' : recvMsg S k.pubSeed idx body M (p.d - 1 + 1) =
      S.treeRoot k.skSeed k.pubSeed (p.d - 1) (treeOn S idx (p.d - 1)) := by
    rw [Nat.sub_add_cancel hd, htop, htree, hh]; rfl
  -- downward induction
  have down : ∀ j, j < p.d →
      (∃ i < p.d, TreePathCollision S k idx body M i ∨ LtreeCollision S k idx body M i) ∨
      (∃ i, 0 < i ∧ i < p.d ∧ OwnWotsKey S k idx body M i ∧
        recvMsg S k.pubSeed idx body M i ≠ S.treeRoot k.skSeed k.pubSeed (i - 1) (treeOn S idx (i - 1))) ∨
      (∀ i, p.d - 1 - j ≤ i → i < p.d → OwnWotsKey S k idx body M i ∧
        recvMsg S k.pubSeed idx body M (i + 1) = S.treeRoot k.skSeed k.pubSeed i (treeOn S idx i)) := by
    intro j
    induction j with
    | zero =>
      intro _
      rcases layer_binding S hlenp k idx body M (p.d - 1) htop' with h | h | h
      · exact Or.inl ⟨p.d - 1, by omega, Or.inl h⟩
      · exact Or.inl ⟨p.d - 1, by omega, Or.inr h⟩
      · refine Or.inr (Or.inr ?_)
        intro i h1 h2
        have : i = p.d - 1 := by omega
        subst this
        exact ⟨h, htop'⟩
    | succ j ih =>
      intro hj
      rcases ih (by omega) with h | h | h
      · exact Or.inl h
      · exact Or.inr (Or.inl h)
      · have hi := h (p.d - 1 - j) (Nat.le_refl _) (by omega)
        have hpred : p.d - 1 - j = p.d - 1 - (j + 1) + 1 := by omega
        by_cases hm : recvMsg S k.pubSeed idx body M (p.d - 1 - j) =
            S.treeRoot k.skSeed k.pubSeed (p.d - 1 - j - 1) (treeOn S idx (p.d - 1 - j - 1))
        · have hm2 : recvMsg S k.pubSeed idx body M (p.d - 1 - (j + 1) + 1) =
              S.treeRoot k.skSeed k.pubSeed (p.d - 1 - (j + 1)) (treeOn S idx (p.d - 1 - (j + 1))) := by
            rw [← hpred]
            exact hm
          rcases layer_binding S hlenp k idx body M (p.d - 1 - (j + 1)) hm2 with h' | h' | h'
          · exact Or.inl ⟨_, by omega, Or.inl h'⟩
          · exact Or.inl ⟨_, by omega, Or.inr h'⟩
          · refine Or.inr (Or.inr ?_)
            intro i h1 h2
            by_cases hii : i = p.d - 1 - (j + 1)
            · subst hii; exact ⟨h', hm2⟩
            · exact h i (by omega) h2
        · exact Or.inr (Or.inl ⟨p.d - 1 - j, by omega, by omega, hi.1, hm⟩)
  rcases down (p.d - 1) (by omega) with h | h | h
  · exact Or.inl h
  · exact Or.inr (Or.inl h)
  · refine Or.inr (Or.inr ⟨fun i hi => (h i (by omega) hi).1, ?_⟩)
    intro i hi hpos
    have := (h (i - 1) (by omega) (by omega)).2
    rwa [Nat.sub_add_cancel hpos] at this

/-- Non-vacuity of C28: every signature made by the key itself below the last index satisfies the hypotheses (it is
accepted, C16) — and here the third alternative holds. -/
theorem C28_honest_case (hp : f.parse oid = some p) (hH : coreHash P p.func p.n = some H) (k : Key) (hk : k.Valid p)
    (hh : k.Honest (suiteOf p H)) (idx : Nat) (hidx : idx < 2 ^ p.full_height - 1) (msg m : Bytes) (l0 : Nat)
    (h64 : p.sig_bytes + msg.length < 2 ^ 64) (hm : p.sig_bytes + msg.length ≤ m.length) :
    ∃ sig r, sig.length = p.sig_bytes ∧
      f.signOpen P m l0 (sig ++ msg) (p.sig_bytes + msg.length) (k.pk oid) = some r ∧ r.ret = 0 ∧
      Rfc.toNat (sig.take p.index_bytes) = idx := by
  obtain ⟨g, hskb, ho, _⟩ := Family.facts (P := P) hp
  have hHl := Family.hash_length hp hH
  have hfit := g.idx_fits
  have hsl := sign_length g hHl k.skSeed k.skPrf k.root k.pubSeed idx msg
  obtain ⟨r, h1, h2, h3⟩ := C23_open_is_rfc hp hH k hk.root hk.pubSeed _ msg m l0 hsl h64 hm
  refine ⟨_, r, hsl, h1, ?_, ?_⟩
  · rw [h3, Rfc.Suite.verify, verifyRoot_sign g hHl _ _ _ _ _ _ (by omega), Nat.div_eq_of_lt (by omega), hh]
    rfl
  · simp only [Rfc.Suite.sign, List.append_assoc]
    show Rfc.toNat (List.take (suiteOf p H).idxLen _) = idx
    rw [List.take_left' (toByte_length _ _)]
    show Rfc.toNat (Rfc.toByte idx p.index_bytes) = idx
    rw [toNat_toByte, Nat.mod_eq_of_lt (by omega)]

/-- **C29 (what remains true).**  Under an honestly generated public key, an accepted signature with an index outside
the tree yields an explicit collision of the underlying hash function: either of the two strings hashed for the top
node, or of the two strings from which the keys of these two hashes are derived. -/
theorem C29_out_of_range_collision_partial (hp : f.parse oid = some p) (hH : coreHash P p.func p.n = some H) (k : Key)
    (hk : k.Valid p) (hh : k.Honest (suiteOf p H)) (sig msg m : Bytes) (l0 : Nat) (hs : sig.length = p.sig_bytes)
    (h64 : p.sig_bytes + msg.length < 2 ^ 64) (hm : p.sig_bytes + msg.length ≤ m.length) (r : OpenOut)
    (hr : f.signOpen P m l0 (sig ++ msg) (p.sig_bytes + msg.length) (k.pk oid) = some r) (hacc : r.ret = 0)
    (hidx : 2 ^ p.full_height ≤ Rfc.toNat (sig.take p.index_bytes)) :
    let S := suiteOf p H
    let idx := Rfc.toNat (sig.take p.index_bytes)
    let body := sig.drop (p.index_bytes + p.n)
    let M := S.digest ((sig.drop p.index_bytes).take p.n) k.root idx msg
    let top := p.tree_height - 1
    let leaf := leafOn S idx (p.d - 1)
    let adrs := fun tree => Rfc.Suite.treeAdrs (p.d - 1) tree top 0
    let str := fun tree (c : Bytes × Bytes) => Rfc.toByte 1 p.padding_len ++ S.PRF k.pubSeed (adrs tree 0) ++
      (Rfc.xor c.1 (S.PRF k.pubSeed (adrs tree 1)) ++ Rfc.xor c.2 (S.PRF k.pubSeed (adrs tree 2)))
    let prfStr := fun tree => Rfc.toByte 3 p.padding_len ++ k.pubSeed ++ adrs tree 0
    let received := str (treeOn S idx (p.d - 1)) (children leaf top
      (pathNode S k.pubSeed (p.d - 1) (treeOn S idx (p.d - 1)) leaf (recvLeaf S k.pubSeed idx body M (p.d - 1))
        (recvAuth S body (p.d - 1)) top) ((recvAuth S body (p.d - 1)).getD top []))
    let own := str 0 (S.node k.skSeed k.pubSeed (p.d - 1) 0 top 0, S.node k.skSeed k.pubSeed (p.d - 1) 0 top 1)
    (received ≠ own ∧ H received = H own) ∨
    (prfStr (treeOn S idx (p.d - 1)) ≠ prfStr 0 ∧ H (prfStr (treeOn S idx (p.d - 1))) = H (prfStr 0)) := by
  intro S idx body M top leaf adrs str prfStr received own
  obtain ⟨g, hskb, ho, _⟩ := Family.facts (P := P) hp
  have hHl := Family.hash_length hp hH
  obtain ⟨r', h1, _, h3⟩ := C23_open_is_rfc hp hH k hk.root hk.pubSeed sig msg m l0 hs h64 hm
  rw [hr] at h1
  cases h1
  have hver := h3.mp hacc
  have hd := g.d_pos
  have hth := g.th_pos
  have hhp : S.hp = p.tree_height := g.hp_eq H
  have htop : recvMsg S k.pubSeed idx body M p.d = k.root := by
    have h := verifyLayers_recv S k.pubSeed idx body M p.d 0
    simp only [Nat.mul_zero, pow_zero, Nat.div_one, Nat.zero_mul, List.drop_zero, Nat.zero_add] at h
    rw [← h]
    exact hver
  have hleaf : leaf < 2 ^ p.tree_height := by
    rw [← hhp]; exact Nat.mod_lt _ (by positivity)
  have la : (recvAuth S body (p.d - 1)).length = p.tree_height := by simp [recvAuth, Rfc.blocks, hhp]
  have hR : H received = k.root := by
    rw [← htop]
    have e : recvMsg S k.pubSeed idx body M p.d = recvMsg S k.pubSeed idx body M (p.d - 1 + 1) := by
      rw [Nat.sub_add_cancel hd]
    rw [e, recvMsg_succ]
    have hpn := pathNode_succ S k.pubSeed (p.d - 1) (treeOn S idx (p.d - 1)) leaf
      (recvLeaf S k.pubSeed idx body M (p.d - 1)) (recvAuth S body (p.d - 1)) top (by omega)
    have htop1 : top + 1 = p.tree_height := Nat.sub_add_cancel hth
    rw [htop1, Nat.div_eq_of_lt hleaf, pathNode, List.take_of_length_le (by omega)] at hpn
    rw [hpn]
    rfl
  have hO : H own = k.root := by
    rw [hh, Rfc.Suite.root, Rfc.Suite.treeRoot, hhp, show p.tree_height = top + 1 from (Nat.sub_add_cancel hth).symm]
    rfl
  by_cases he : received = own
  · right
    constructor
    · intro hc
      have hlt : idx < 2 ^ 64 := by
        have h1 : idx < 256 ^ (sig.take p.index_bytes).length := toNat_lt _
        have h2 : (sig.take p.index_bytes).length ≤ p.index_bytes := by simp
        calc idx < 256 ^ (sig.take p.index_bytes).length := h1
          _ ≤ 256 ^ 8 := Nat.pow_le_pow_right (by decide) (Nat.le_trans h2 g.idx_le)
          _ = 2 ^ 64 := by norm_num
      have hne : treeOn S idx (p.d - 1) ≠ 0 := by
        rw [treeOn, Nat.sub_add_cancel hd, hhp, g.height]
        have : 0 < idx / 2 ^ p.full_height := Nat.div_pos hidx (by positivity)
        omega
      have hlt2 : treeOn S idx (p.d - 1) < 256 ^ 8 := by
        have : treeOn S idx (p.d - 1) ≤ idx := Nat.div_le_self _ _
        norm_num; omega
      have hc := List.append_cancel_left hc
      simp only [adrs, Rfc.Suite.treeAdrs, List.append_assoc] at hc
      have hc := List.append_cancel_left hc
      have hc := (List.append_inj hc (by simp [toByte_length])).1
      exact hne (toByte_inj hlt2 (by norm_num) hc)
    · have he : str _ _ = str _ _ := he
      simp only [str, List.append_assoc] at he
      have he := List.append_cancel_left he
      exact (List.append_inj he ((hHl _).trans (hHl _).symm)).1
  · exact Or.inl ⟨he, hR.trans hO.symm⟩

end Xmss
