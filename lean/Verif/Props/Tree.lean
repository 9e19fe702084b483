import Verif.Props.Basic
import Verif.Proof.Core
import Verif.Props.Wots
/-
C13, C14, C15: trees, and the collision extraction lemmas for C28.
-/
namespace Xmss

variable {H : Bytes → Bytes} {p : Params}

/-! ### C13 -/

/-- **C13 (treehash).**  For every tree (any layer and tree number), every leaf and every previous content of the
output array, `treehash` succeeds (so its node stack never holds more than `tree_height + 1` nodes and it writes only
inside `auth_path`), and returns the root of the RFC tree and the siblings on the way from the leaf to the root. -/
theorem C13_treehash (g : p.Good) (hH : ∀ x, (H x).length = p.n) (skSeed pubSeed : Bytes) (leafIdx : Nat)
    (hleaf : leafIdx < 2 ^ p.tree_height) (sub : Addr) (auth0 : List Bytes) (hal : auth0.length = p.tree_height) :
    let layer := sub.a0.toNat
    let tree := sub.a1.toNat * 2 ^ 32 + sub.a2.toNat
    treehash H p skSeed pubSeed leafIdx sub auth0 =
      some ((suiteOf p H).node skSeed pubSeed layer tree p.tree_height 0,
        (List.range p.tree_height).map fun k =>
          (suiteOf p H).node skSeed pubSeed layer tree k (Rfc.Suite.sibling (leafIdx / 2 ^ k))) := by
  intro layer tree
  have i := IsOts.of_addr { sub with a3 := 0 } rfl
  rw [treehash_eq g hH (layer := layer) (tree := tree) skSeed pubSeed hleaf sub auth0 i.h0 i.h1 i.h2 hal,
    Rfc.Suite.treeRoot, Rfc.Suite.authPath, g.hp_eq]

/-- **C13 (key generation).**  The root stored in both keys is the root of the RFC tree number 0 on the top layer. -/
theorem C13_keygen (g : p.Good) (hH : ∀ x, (H x).length = p.n) (pk sk skSeed skPrf pubSeed : Bytes)
    (hpk : pk.length = 2 * p.n) (hsk : sk.length = p.index_bytes + 4 * p.n)
    (hA : skSeed.length = p.n) (hB : skPrf.length = p.n) (hC : pubSeed.length = p.n) :
    let root := (suiteOf p H).node skSeed pubSeed (p.d - 1) 0 p.tree_height 0
    coreSeedKeypair H p pk sk (skSeed ++ skPrf ++ pubSeed) =
      some (root ++ pubSeed, List.replicate p.index_bytes 0 ++ skSeed ++ skPrf ++ root ++ pubSeed) := by
  intro root
  have h := coreSeedKeypair_eq g hH pk sk skSeed skPrf pubSeed [] [] [] hpk hsk hA hB hC
  have e : (suiteOf p H).root skSeed pubSeed = root := by
    rw [Rfc.Suite.root, Rfc.Suite.treeRoot, g.hp_eq]; rfl
  simpa [e] using h

/-! ### C14 -/

/-- **C14.**  The in-place L-tree computes the RFC ltree value for every positive number of chains. -/
theorem C14_ltree (hH : ∀ x, (H x).length = p.n) (hlen : 0 < p.wots_len) (pubSeed : Bytes) (nodes : List Bytes)
    (hn : nodes.length = p.wots_len) (hx : ∀ x ∈ nodes, x.length = p.n) (a : Addr) (ha : a.a3 = 1) :
    (lTree H p nodes pubSeed a).1 =
      (suiteOf p H).ltree pubSeed a.a0.toNat (a.a1.toNat * 2 ^ 32 + a.a2.toNat) a.a4.toNat nodes := by
  have i := IsOts.of_addr { a with a3 := 0 } rfl
  have h := ltreeLoop_eq hH pubSeed p.wots_len p.wots_len 0 nodes (setTreeHeight a 0)
    ⟨i.h0, i.h1, i.h2, by rw [show (setTreeHeight a 0).a3 = a.a3 from rfl, ha]; rfl, i.h4⟩ rfl hlen (by omega)
    (by
      intro j hj
      apply hx
      simp [List.getD_eq_getElem?_getD, List.getElem?_eq_getElem hj])
  rw [lTree, h.1, Rfc.Suite.ltree, hn, List.take_of_length_le (by omega)]

/-! ### C15 -/

/-- The children, in order, of the node of height `k + 1` on the path of leaf `i`, when the path node of height `k`
is `x` and its sibling is `a`. -/
def children (i k : Nat) (x a : Bytes) : Bytes × Bytes := if (i / 2 ^ k) % 2 = 0 then (x, a) else (a, x)

/-- The path node of height `k` computed from a leaf and an authentication path. -/
def pathNode (S : Rfc.Suite) (pubSeed : Bytes) (layer tree i : Nat) (leaf : Bytes) (auth : List Bytes) (k : Nat) :
    Bytes := S.climb pubSeed layer tree 0 i leaf (auth.take k)

/-- Two different pairs of children with the same parent value under the tree hash at one node address. -/
def TreeCollision (S : Rfc.Suite) (pubSeed : Bytes) (adrs : Nat → Bytes) (c c' : Bytes × Bytes) : Prop :=
  c ≠ c' ∧ S.randHash pubSeed adrs c.1 c.2 = S.randHash pubSeed adrs c'.1 c'.2

theorem climb_append (S : Rfc.Suite) (pubSeed : Bytes) (layer tree : Nat) (a : Bytes) :
    ∀ (auth : List Bytes) (k i : Nat) (x : Bytes),
    S.climb pubSeed layer tree k i x (auth ++ [a]) =
      let y := S.climb pubSeed layer tree k i x auth
      let c := children i auth.length y a
      S.randHash pubSeed (Rfc.Suite.treeAdrs layer tree (k + auth.length) (i / 2 ^ (auth.length + 1))) c.1 c.2 := by
  intro auth
  induction auth with
  | nil =>
    intro k i x
    simp only [List.nil_append, Rfc.Suite.climb, children, List.length_nil, pow_zero, Nat.div_one]
    split <;> simp
  | cons b auth ih =>
    intro k i x
    have e : ∀ m, i / 2 / 2 ^ m = i / 2 ^ (m + 1) := by
      intro m; rw [Nat.div_div_eq_div_mul, pow_succ']
    simp only [List.cons_append, Rfc.Suite.climb, ih, children, List.length_cons, e]
    rw [show k + 1 + auth.length = k + (auth.length + 1) by omega]

theorem pathNode_succ (S : Rfc.Suite) (pubSeed : Bytes) (layer tree i : Nat) (leaf : Bytes) (auth : List Bytes) (k : Nat)
    (hk : k < auth.length) :
    pathNode S pubSeed layer tree i leaf auth (k + 1) =
      let c := children i k (pathNode S pubSeed layer tree i leaf auth k) (auth.getD k [])
      S.randHash pubSeed (Rfc.Suite.treeAdrs layer tree k (i / 2 ^ (k + 1))) c.1 c.2 := by
  have e : auth.take (k + 1) = auth.take k ++ [auth.getD k []] := by
    rw [List.take_add_one]; simp [List.getD_eq_getElem?_getD, List.getElem?_eq_getElem hk]
  have h := climb_append S pubSeed layer tree (auth.getD k []) (auth.take k) 0 i leaf
  rw [← e] at h
  rw [pathNode, h]
  have : (auth.take k).length = k := by simp; omega
  simp only [this, pathNode, Nat.zero_add]

/-- Collision extraction along two authentication paths. -/
theorem climb_collision (S : Rfc.Suite) (pubSeed : Bytes) (layer tree i : Nat) (leaf leaf' : Bytes)
    (auth auth' : List Bytes) (hl : auth.length = auth'.length) :
    ∀ K ≤ auth.length, pathNode S pubSeed layer tree i leaf auth K = pathNode S pubSeed layer tree i leaf' auth' K →
      leaf = leaf' ∨ ∃ k < K, TreeCollision S pubSeed (Rfc.Suite.treeAdrs layer tree k (i / 2 ^ (k + 1)))
        (children i k (pathNode S pubSeed layer tree i leaf auth k) (auth.getD k []))
        (children i k (pathNode S pubSeed layer tree i leaf' auth' k) (auth'.getD k [])) := by
  intro K
  induction K with
  | zero => intro _ h; exact Or.inl h
  | succ K ih =>
    intro hK h
    by_cases he : pathNode S pubSeed layer tree i leaf auth K = pathNode S pubSeed layer tree i leaf' auth' K
    · rcases ih (by omega) he with h' | ⟨k, hk, h'⟩
      · exact Or.inl h'
      · exact Or.inr ⟨k, by omega, h'⟩
    · refine Or.inr ⟨K, by omega, ?_, ?_⟩
      · intro hc
        unfold children at hc
        split at hc <;> simp only [Prod.mk.injEq] at hc
        · exact he hc.1
        · exact he hc.2
      · rw [pathNode_succ _ _ _ _ _ _ _ _ (by omega), pathNode_succ _ _ _ _ _ _ _ _ (by omega)] at h
        exact h

/-- **C15.**  If the verifier's root computation gives the same root for two different leaves at one index, with any
authentication paths, then at some height the two paths contain different pairs of children with the same parent
value at the same node address. -/
theorem C15_merkle_binding (hH : ∀ x, (H x).length = p.n) (pubSeed : Bytes) (i : Nat) (leaf leaf' : Bytes)
    (auth auth' : List Bytes) (a a' b b' : Addr) (root : Bytes) (ha : a.a3 = 2) (ha4 : a.a4 = 0) (haa : a' = a)
    (hl : leaf.length = p.n) (hl' : leaf'.length = p.n)
    (h1 : ∀ y ∈ auth, y.length = p.n) (h1' : ∀ y ∈ auth', y.length = p.n) (hlen : auth.length = auth'.length)
    (hr : computeRoot H p leaf i auth pubSeed a = some (root, b))
    (hr' : computeRoot H p leaf' i auth' pubSeed a' = some (root, b')) (hne : leaf ≠ leaf') :
    let S := suiteOf p H
    let layer := a.a0.toNat
    let tree := a.a1.toNat * 2 ^ 32 + a.a2.toNat
    ∃ k < auth.length, TreeCollision S pubSeed (Rfc.Suite.treeAdrs layer tree k (i / 2 ^ (k + 1)))
        (children i k (pathNode S pubSeed layer tree i leaf auth k) (auth.getD k []))
        (children i k (pathNode S pubSeed layer tree i leaf' auth' k) (auth'.getD k [])) := by
  intro S layer tree
  subst haa
  have i0 := IsOts.of_addr { a' with a3 := 0 } rfl
  have it : IsTree a' layer tree := ⟨i0.h0, i0.h1, i0.h2, by rw [ha]; rfl, by rw [ha4]; rfl⟩
  have hne1 : auth ≠ [] := by rintro rfl; simp [computeRoot] at hr
  have hne2 : auth' ≠ [] := by rintro rfl; simp [computeRoot] at hr'
  obtain ⟨n1, c1, _, _⟩ := computeRoot_eq hH pubSeed i a' it hne1 hl h1
  obtain ⟨n2, c2, _, _⟩ := computeRoot_eq hH pubSeed i a' it hne2 hl' h1'
  rw [c1] at hr
  rw [c2] at hr'
  simp only [Option.some.injEq, Prod.mk.injEq] at hr hr'
  have h := climb_collision S pubSeed layer tree i leaf leaf' auth auth' hlen auth.length (Nat.le_refl _) (by
    rw [pathNode, pathNode, List.take_of_length_le (by omega), List.take_of_length_le (by omega)]
    exact hr.1.trans hr'.1.symm)
  rcases h with h | h
  · exact absurd h hne
  · exact h

theorem xor_inj {a b m : Bytes} (ha : a.length = m.length) (hb : b.length = m.length) (h : Rfc.xor a m = Rfc.xor b m) :
    a = b := by
  induction m generalizing a b with
  | nil => simp_all
  | cons x m ih =>
    cases a with
    | nil => simp at ha
    | cons y a =>
      cases b with
      | nil => simp at hb
      | cons z b =>
        simp only [Rfc.xor, List.zipWith_cons_cons, List.cons.injEq] at h
        obtain ⟨h1, h2⟩ := h
        have hyz : y = z := by
          have := congrArg (· ^^^ x) h1
          simpa [UInt8.xor_assoc] using this
        rw [hyz, ih (by simpa using ha) (by simpa using hb) h2]

/-- A tree hash collision on n-byte nodes is a collision of the underlying hash function: these are the two strings. -/
theorem treeCollision_hash {S : Rfc.Suite} (hH : ∀ x, (S.hash x).length = S.n) {pubSeed : Bytes} {adrs : Nat → Bytes}
    {c c' : Bytes × Bytes} (h : TreeCollision S pubSeed adrs c c') (h1 : c.1.length = S.n) (h2 : c.2.length = S.n)
    (h3 : c'.1.length = S.n) (h4 : c'.2.length = S.n) :
    let str := fun x : Bytes × Bytes => Rfc.toByte 1 S.pad ++ S.PRF pubSeed (adrs 0) ++
      (Rfc.xor x.1 (S.PRF pubSeed (adrs 1)) ++ Rfc.xor x.2 (S.PRF pubSeed (adrs 2)))
    str c ≠ str c' ∧ S.hash (str c) = S.hash (str c') := by
  intro str
  refine ⟨fun he => h.1 ?_, h.2⟩
  have he := List.append_cancel_left he
  have l1 : (S.PRF pubSeed (adrs 1)).length = S.n := hH _
  have l2 : (S.PRF pubSeed (adrs 2)).length = S.n := hH _
  obtain ⟨e1, e2⟩ := List.append_inj he (by simp [Rfc.xor, h1, h3])
  exact Prod.ext (xor_inj (by omega) (by omega) e1) (xor_inj (by omega) (by omega) e2)

/-! ### L-tree collisions -/

/-- The row of height `k` of the L-tree over `pk`. -/
def ltreeRowAt (S : Rfc.Suite) (pubSeed : Bytes) (layer tree leaf : Nat) (pk : List Bytes) (k : Nat) : List Bytes :=
  Rfc.Suite.ltreeRows (fun height i => S.randHash pubSeed (Rfc.Suite.ltreeAdrs layer tree leaf height i)) k 0 pk

theorem ltreeRow_collision (f : Nat → Bytes → Bytes → Bytes) : ∀ (a b : List Bytes) (i : Nat), a.length = b.length →
    Rfc.Suite.ltreeRow f i a = Rfc.Suite.ltreeRow f i b → a = b ∨ ∃ j, 2 * j + 1 < a.length ∧
      (a.getD (2 * j) [], a.getD (2 * j + 1) []) ≠ (b.getD (2 * j) [], b.getD (2 * j + 1) []) ∧
      f (i + j) (a.getD (2 * j) []) (a.getD (2 * j + 1) []) = f (i + j) (b.getD (2 * j) []) (b.getD (2 * j + 1) []) := by
  intro a
  induction a using List.twoStepInduction with
  | nil => intro b i hl _; cases b <;> simp_all
  | singleton x =>
    intro b i hl h
    match b, hl with
    | [y], _ => left; simpa [Rfc.Suite.ltreeRow] using h
  | cons_cons x y a ih _ =>
    intro b i hl h
    match b, hl with
    | x' :: y' :: b, hl =>
      simp only [Rfc.Suite.ltreeRow, List.cons.injEq] at h
      by_cases he : (x, y) = (x', y')
      · simp only [Prod.mk.injEq] at he
        rcases ih b (i + 1) (by simpa using hl) h.2 with h' | ⟨j, h1, h2, h3⟩
        · left; rw [he.1, he.2, h']
        · right
          refine ⟨j + 1, by simp only [List.length_cons]; omega, ?_, ?_⟩
          · rw [show 2 * (j + 1) = 2 * j + 1 + 1 by ring]; simpa using h2
          · rw [show 2 * (j + 1) = 2 * j + 1 + 1 by ring, show i + (j + 1) = i + 1 + j by ring]; simpa using h3
      · right
        exact ⟨0, by simp, by simpa using he, by simpa using h.1⟩

theorem ltreeRow_length (f : Nat → Bytes → Bytes → Bytes) : ∀ (a : List Bytes) (i : Nat),
    (Rfc.Suite.ltreeRow f i a).length = (a.length + 1) / 2 := by
  intro a
  induction a using List.twoStepInduction with
  | nil => intro i; rfl
  | singleton x => intro i; simp [Rfc.Suite.ltreeRow]
  | cons_cons x y a ih _ => intro i; simp only [Rfc.Suite.ltreeRow, List.length_cons, ih]; omega

theorem ltreeRows_collision (f : Nat → Nat → Bytes → Bytes → Bytes) : ∀ (k height : Nat) (a b : List Bytes),
    a.length = b.length → Rfc.Suite.ltreeRows f k height a = Rfc.Suite.ltreeRows f k height b → a = b ∨
    ∃ r < k, ∃ j, let u := Rfc.Suite.ltreeRows f r height a; let v := Rfc.Suite.ltreeRows f r height b
      2 * j + 1 < u.length ∧
      (u.getD (2 * j) [], u.getD (2 * j + 1) []) ≠ (v.getD (2 * j) [], v.getD (2 * j + 1) []) ∧
      f (height + r) j (u.getD (2 * j) []) (u.getD (2 * j + 1) []) =
        f (height + r) j (v.getD (2 * j) []) (v.getD (2 * j + 1) []) := by
  intro k
  induction k with
  | zero => intro height a b _ h; exact Or.inl h
  | succ k ih =>
    intro height a b hl h
    simp only [Rfc.Suite.ltreeRows] at h
    by_cases h1 : a.length ≤ 1
    · rw [if_pos h1, if_pos (by omega)] at h; exact Or.inl h
    · rw [if_neg h1, if_neg (by omega)] at h
      have hl' : (Rfc.Suite.ltreeRow (f height) 0 a).length = (Rfc.Suite.ltreeRow (f height) 0 b).length := by
        rw [ltreeRow_length, ltreeRow_length, hl]
      rcases ih (height + 1) _ _ hl' h with h' | ⟨r, hr, j, h'⟩
      · rcases ltreeRow_collision (f height) a b 0 hl h' with h'' | ⟨j, g1, g2, g3⟩
        · exact Or.inl h''
        · exact Or.inr ⟨0, by omega, j, g1, g2, by rw [Nat.zero_add] at g3; exact g3⟩
      · refine Or.inr ⟨r + 1, by omega, j, ?_⟩
        have e : ∀ c : List Bytes, c.length = a.length → Rfc.Suite.ltreeRows f (r + 1) height c =
            Rfc.Suite.ltreeRows f r (height + 1) (Rfc.Suite.ltreeRow (f height) 0 c) := by
          intro c hc
          rw [Rfc.Suite.ltreeRows, if_neg (by omega)]
        simp only [e a rfl, e b hl.symm]
        rw [show height + (r + 1) = height + 1 + r by ring]
        exact h'

theorem ltreeRows_length (f : Nat → Nat → Bytes → Bytes → Bytes) : ∀ (k height : Nat) (a : List Bytes),
    0 < a.length → a.length ≤ k + 1 → (Rfc.Suite.ltreeRows f k height a).length = 1 := by
  intro k
  induction k with
  | zero => intro height a h1 h2; simp only [Rfc.Suite.ltreeRows]; omega
  | succ k ih =>
    intro height a h1 h2
    rw [Rfc.Suite.ltreeRows]
    split
    · omega
    · apply ih
      · rw [ltreeRow_length]; omega
      · rw [ltreeRow_length]; omega

/-- Two L-trees with the same value over different WOTS keys contain an explicit collision. -/
theorem ltree_collision (S : Rfc.Suite) (pubSeed : Bytes) (layer tree leaf : Nat) (pk pk' : List Bytes)
    (hl : pk.length = pk'.length) (hpos : 0 < pk.length)
    (h : S.ltree pubSeed layer tree leaf pk = S.ltree pubSeed layer tree leaf pk') :
    pk = pk' ∨ ∃ k j, TreeCollision S pubSeed (Rfc.Suite.ltreeAdrs layer tree leaf k j)
      ((ltreeRowAt S pubSeed layer tree leaf pk k).getD (2 * j) [], (ltreeRowAt S pubSeed layer tree leaf pk k).getD (2 * j + 1) [])
      ((ltreeRowAt S pubSeed layer tree leaf pk' k).getD (2 * j) [],
        (ltreeRowAt S pubSeed layer tree leaf pk' k).getD (2 * j + 1) []) := by
  set f := fun height i => S.randHash pubSeed (Rfc.Suite.ltreeAdrs layer tree leaf height i) with hf
  have h1 := ltreeRows_length f pk.length 0 pk hpos (by omega)
  have h2 := ltreeRows_length f pk'.length 0 pk' (by omega) (by omega)
  have hrows : Rfc.Suite.ltreeRows f pk.length 0 pk = Rfc.Suite.ltreeRows f pk.length 0 pk' := by
    unfold Rfc.Suite.ltree at h
    rw [← hf, ← hl] at h
    rw [← hl] at h2
    match h3 : Rfc.Suite.ltreeRows f pk.length 0 pk, h4 : Rfc.Suite.ltreeRows f pk.length 0 pk', h1, h2 with
    | [x], [y], _, _ => rw [h3, h4] at h; simpa using h
  rcases ltreeRows_collision f pk.length 0 pk pk' hl hrows with h' | ⟨r, _, j, _, g2, g3⟩
  · exact Or.inl h'
  · refine Or.inr ⟨r, j, g2, ?_⟩
    rw [Nat.zero_add] at g3
    exact g3

end Xmss
