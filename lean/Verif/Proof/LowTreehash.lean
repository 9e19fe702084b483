import Verif.Proof.LowTree
import Verif.Proof.Treehash
/-
Model/Low refines the first model: `treehash` of xmss_core.c.
-/
namespace Xmss.Low

/-! ### Ranges that are not fully initialised -/

/-- Writing cells, initialised or not. -/
def storeC (m : Mem) (q : Ptr) (C : Block) : Option Mem :=
  match m[q.blk]? with
  | none => none
  | some b => if q.off + C.length ≤ b.length then some (m.set q.blk (b.take q.off ++ C ++ b.drop (q.off + C.length))) else none

theorem storeC_map (m : Mem) (q : Ptr) (x : Bytes) : storeC m q (x.map some) = store m q x := by
  unfold storeC store Block.write
  cases h : m[q.blk]? with
  | none => rfl
  | some b =>
    simp only [List.length_map, Option.bind_eq_bind, Option.bind_some]
    split <;> rfl

theorem storeC_eq_some {m m' : Mem} {q : Ptr} {C : Block} : storeC m q C = some m' ↔
    ∃ U X V, m[q.blk]? = some (U ++ X ++ V) ∧ U.length = q.off ∧ X.length = C.length ∧ m' = m.set q.blk (U ++ C ++ V) := by
  unfold storeC
  cases h : m[q.blk]? with
  | none => simp
  | some b =>
    simp only [Option.some.injEq]
    constructor
    · intro h2
      split at h2
      · rename_i h3
        refine ⟨b.take q.off, (b.drop q.off).take C.length, b.drop (q.off + C.length), ?_, ?_, ?_, ?_⟩
        · rw [List.append_assoc, ← List.drop_drop, List.take_append_drop, List.take_append_drop]
        · simp; omega
        · simp; omega
        · simpa using h2.symm
      · simp at h2
    · rintro ⟨U, X, V, rfl, h1, h2, rfl⟩
      rw [if_pos (by simp; omega), ← h1, ← h2]
      congr 3
      · simp
      · rw [List.drop_append, List.drop_append]
        simp

theorem Valid.storeC {m : Mem} {q : Ptr} {len : Nat} (h : Valid m q len) : ∃ C : Block, C.length = len ∧ Low.storeC m q C = some m := by
  obtain ⟨b, h1, h2⟩ := h
  refine ⟨(b.drop q.off).take len, by simp; omega, ?_⟩
  refine storeC_eq_some.mpr ⟨b.take q.off, (b.drop q.off).take len, b.drop (q.off + len), ?_, by simp; omega, rfl, ?_⟩
  · rw [h1, List.append_assoc, ← List.drop_drop, List.take_append_drop, List.take_append_drop]
  · rw [List.append_assoc, ← List.drop_drop, List.take_append_drop, List.take_append_drop]
    obtain ⟨hlt, rfl⟩ := List.getElem?_eq_some_iff.mp h1
    exact (List.set_getElem_self hlt).symm

theorem storeC_length {m m' : Mem} {q : Ptr} {C : Block} (h : storeC m q C = some m') : m'.length = m.length := by
  obtain ⟨U, X, V, _, _, _, rfl⟩ := storeC_eq_some.mp h
  simp

theorem storeC_mid {m m' : Mem} {q : Ptr} {A B C : Block} {x : Bytes} (h : storeC m q (A ++ B ++ C) = some m') (hl : x.length = B.length) :
    ∃ m'', storeC m q (A ++ x.map some ++ C) = some m'' ∧ store m' (q + A.length) x = some m'' := by
  obtain ⟨U, X, V, h1, h2, h3, rfl⟩ := storeC_eq_some.mp h
  have hlt := (List.getElem?_eq_some_iff.mp h1).1
  refine ⟨_, storeC_eq_some.mpr ⟨U, X, V, h1, h2, by simp [h3, hl], rfl⟩, ?_⟩
  refine store_eq_some.mpr ⟨U ++ (A ++ B ++ C) ++ V, U ++ (A ++ x.map some ++ C) ++ V, ?_, ?_, ?_⟩
  · simp only [add_blk]; rw [List.getElem?_set_self hlt]
  · exact write_eq_some.mpr ⟨U ++ A, B, C ++ V, by simp, by simp [h2], by simp [hl], by simp⟩
  · simp only [add_blk]; rw [List.set_set]

theorem load_storeC_disj {m m' : Mem} {q r : Ptr} {C : Block} {len : Nat} (h : storeC m q C = some m') (hd : Disj r len q C.length) :
    load m' r len = load m r len := by
  obtain ⟨U, X, V, h1, h2, h3, rfl⟩ := storeC_eq_some.mp h
  have hlt := (List.getElem?_eq_some_iff.mp h1).1
  unfold load
  by_cases e : q.blk = r.blk
  · rw [← e, List.getElem?_set_self hlt, h1]
    simp only [Option.bind_eq_bind, Option.bind_some]
    unfold Disj at hd
    have hd' : r.off + len ≤ q.off ∨ q.off + C.length ≤ r.off := by omega
    have hlen : (U ++ C ++ V).length = (U ++ X ++ V).length := by simp [h3]
    unfold Block.read
    rw [hlen]
    split
    · rename_i hb
      congr 1
      rcases hd' with hd' | hd'
      · rw [List.append_assoc, List.append_assoc, List.drop_append_of_le_length (by omega), List.drop_append_of_le_length (by omega),
          List.take_append_of_le_length (by simp; omega), List.take_append_of_le_length (by simp; omega)]
      · have e1 : (U ++ C ++ V).drop r.off = V.drop (r.off - (q.off + C.length)) := by
          rw [List.drop_append, List.drop_eq_nil_of_le (by simp; omega)]
          simp [h2]
        have e2 : (U ++ X ++ V).drop r.off = V.drop (r.off - (q.off + C.length)) := by
          rw [List.drop_append, List.drop_eq_nil_of_le (by simp; omega)]
          simp [h2, h3]
        rw [e1, e2]
    · rfl
  · rw [List.getElem?_set_ne e]

section treehash
variable {P : Prims} {H : Bytes → Bytes} {p : Params}

/-! ### The state of treehash -/

/-- The local arrays `stack` and `heights` of treehash hold the nodes `stk` (top first) and their heights. -/
structure StkMem (p : Params) (stk : List (Bytes × Nat)) (S : Block) (hts : UArr) : Prop where
  nodes : ∃ J, S = ((stk.reverse.map Prod.fst).flatten).map some ++ J
  slen : S.length = (p.tree_height + 1) * p.n
  heights : ∃ J, hts = stk.reverse.map (fun c => some c.2) ++ J
  hlen : hts.length = p.tree_height + 1
  len : ∀ c ∈ stk, c.1.length = p.n

/-- The array of the authentication path: the nodes that were written are there. -/
structure AuthMem (p : Params) (auth : List Bytes) (Cs : List Block) : Prop where
  len : auth.length = p.tree_height
  clen : Cs.length = p.tree_height
  mem : ∀ C ∈ Cs, C.length = p.n
  val : ∀ j, j < p.tree_height → auth.getD j [] = [] ∨ Cs.getD j [] = (auth.getD j []).map some

theorem cflat_length {n : Nat} {l : List Block} (h : ∀ x ∈ l, x.length = n) : l.flatten.length = l.length * n := by
  induction l with
  | nil => simp
  | cons x l ih =>
    rw [List.flatten_cons, List.length_append, h x (by simp), ih (fun y hy => h y (by simp [hy])), List.length_cons]; ring

theorem AuthMem.set {auth : List Bytes} {Cs : List Block} (h : AuthMem p auth Cs) {j : Nat} (hj : j < p.tree_height) {x : Bytes}
    (hx : x.length = p.n) : AuthMem p (auth.set j x) (Cs.set j (x.map some)) := by
  refine ⟨by rw [List.length_set, h.len], by rw [List.length_set, h.clen], ?_, ?_⟩
  · intro C hC
    rcases List.mem_or_eq_of_mem_set hC with h1 | h1
    · exact h.mem C h1
    · rw [h1, List.length_map, hx]
  · intro i hi
    by_cases e : i = j
    · subst e
      right
      have h1 := h.len; have h2 := h.clen
      rw [List.getD_eq_getElem _ _ (by rw [List.length_set]; omega), List.getD_eq_getElem _ _ (by rw [List.length_set]; omega)]
      simp
    · have h1 := h.len; have h2 := h.clen
      have e1 : (auth.set j x).getD i [] = auth.getD i [] := by
        simp [List.getD_eq_getElem?_getD, List.getElem?_set_ne (Ne.symm e)]
      have e2 : (Cs.set j (x.map some)).getD i [] = Cs.getD i [] := by
        simp [List.getD_eq_getElem?_getD, List.getElem?_set_ne (Ne.symm e)]
      rw [e1, e2]
      exact h.val i hi

theorem storeC_node {m X : Mem} {q : Ptr} {Cs : List Block} {n j : Nat} (h : storeC m q Cs.flatten = some X) (hm : ∀ C ∈ Cs, C.length = n)
    (hj : j < Cs.length) {x : Bytes} (hx : x.length = n) :
    ∃ X', storeC m q (Cs.set j (x.map some)).flatten = some X' ∧ store X (q + j * n) x = some X' := by
  have e : Cs = Cs.take j ++ Cs[j] :: Cs.drop (j + 1) := by rw [← List.drop_eq_getElem_cons hj, List.take_append_drop]
  have e2 : Cs.flatten = (Cs.take j).flatten ++ Cs[j] ++ (Cs.drop (j + 1)).flatten := by
    conv_lhs => rw [e]
    rw [List.flatten_append, List.flatten_cons, List.append_assoc]
  rw [e2] at h
  obtain ⟨X', h1, h2⟩ := storeC_mid (x := x) h (by rw [hx, hm _ (List.getElem_mem hj)])
  refine ⟨X', ?_, ?_⟩
  · rw [List.set_eq_take_append_cons_drop, if_pos hj]
    simpa using h1
  · rwa [cflat_length (n := n) (fun C hC => hm C (List.mem_of_mem_take hC)), List.length_take, Nat.min_eq_left (by omega)] at h2

/-- The number of leaves below the nodes on the stack. -/
def weight (stk : List (Bytes × Nat)) : Nat := (stk.map fun c => 2 ^ c.2).sum

theorem ugetTop {stk : List (Bytes × Nat)} {c : Bytes × Nat} {J : UArr} {i : Nat} (h : i = stk.length) :
    uget (stk.reverse.map (fun c => some c.2) ++ some c.2 :: J) i = some c.2 := by
  unfold uget
  rw [List.getElem?_append_right (by simp; omega)]
  simp [h]

theorem usetTop {stk : List (Bytes × Nat)} {c : Option Nat} {J : UArr} {i v : Nat} (h : i = stk.length) :
    uset (stk.reverse.map (fun c => some c.2) ++ c :: J) i v = some (stk.reverse.map (fun c => some c.2) ++ some v :: J) := by
  unfold uset
  rw [if_pos (by simp; omega)]
  congr 1
  rw [List.set_append, if_neg (by simp; omega)]
  simp [h]

theorem treehashMerge_of (hH : Xmss.coreHash P p.func p.n = some H) (hl : ∀ x, (H x).length = p.n) (f : Fits p)
    (hth : p.tree_height < 31) (hsz : (p.tree_height + 1) * p.n < 2 ^ 32) {m : Mem} {authp pubSeed : Ptr} {s : Bytes} {leafIdx idx : Nat}
    (hs : load m pubSeed p.n = some s) (d : Disj pubSeed p.n authp (p.tree_height * p.n)) (hab : authp.blk < m.length) :
    ∀ (rest : List (Bytes × Nat)) (fuel : Nat) (node : Bytes) (h : Nat) (auth auth' : List Bytes) (stk' : List (Bytes × Nat)) (a a' : Addr)
      (X : Mem) (S : Block) (hts : UArr) (Cs : List Block), rest.length < fuel →
      Xmss.treehashMerge H p s leafIdx idx node h rest auth a = some (stk', auth', a') →
      storeC m authp Cs.flatten = some X → AuthMem p auth Cs → StkMem p ((node, h) :: rest) S hts →
      weight ((node, h) :: rest) ≤ 2 ^ p.tree_height →
      ∃ X' S' hts' Cs', storeC m authp Cs'.flatten = some X' ∧ AuthMem p auth' Cs' ∧ StkMem p stk' S' hts' ∧
        weight stk' = weight ((node, h) :: rest) ∧
        treehashMerge P p ⟨m.length, 0⟩ authp pubSeed leafIdx idx fuel hts (rest.length + 1) (X ++ [S]) a =
          some (X' ++ [S'], hts', stk'.length, a') := by
  have hn := f.n_pos
  intro rest
  induction rest with
  | nil =>
    intro fuel node h auth auth' stk' a a' X S hts Cs hf hm hX hA hS hW
    obtain ⟨fuel, rfl⟩ : ∃ k, fuel = k + 1 := ⟨fuel - 1, by omega⟩
    rw [Xmss.treehashMerge, Option.some.injEq, Prod.mk.injEq, Prod.mk.injEq] at hm
    obtain ⟨rfl, rfl, rfl⟩ := hm
    refine ⟨X, S, hts, Cs, hX, hA, hS, rfl, ?_⟩
    rw [treehashMerge]
    rfl
  | cons c rest ih =>
    obtain ⟨node2, h2⟩ := c
    intro fuel node h auth auth' stk' a a' X S hts Cs hf hm hX hA hS hW
    obtain ⟨fuel, rfl⟩ : ∃ k, fuel = k + 1 := ⟨fuel - 1, by omega⟩
    have hXl := storeC_length hX
    obtain ⟨⟨J, hJ⟩, hSl, ⟨JH, hJH⟩, hHl, hlen⟩ := hS
    have hnl : node.length = p.n := hlen (node, h) (by simp)
    have hnl2 : node2.length = p.n := hlen (node2, h2) (by simp)
    have hrest : ∀ c ∈ rest, c.1.length = p.n := fun c hc => hlen c (by simp [hc])
    have hrf : ((rest.reverse.map Prod.fst).flatten).length = rest.length * p.n := by
      rw [flatten_length_of (n := p.n)]
      · simp
      · intro x hx
        obtain ⟨c, hc, rfl⟩ := List.mem_map.mp hx
        exact hrest c (List.mem_reverse.mp hc)
    have hrl : rest.length + 2 ≤ p.tree_height + 1 := by
      have := congrArg List.length hJH
      simp at this; omega
    -- the heights array
    have e1 : hts = (rest.reverse.map fun c => some c.2) ++ some h2 :: (some h :: JH) := by rw [hJH]; simp
    have e1' : hts = (((node2, h2) :: rest).reverse.map fun c => some c.2) ++ some h :: JH := by rw [hJH]; simp
    have g1 : uget hts (rest.length + 1) = some h := by
      rw [e1']; exact ugetTop (c := (node, h)) (by simp)
    have g2 : uget hts rest.length = some h2 := by
      rw [e1]; exact ugetTop (c := (node2, h2)) rfl
    have u1 : usub (rest.length + 1 + 1) 1 = rest.length + 1 := usub_eq (by omega) (by omega)
    have u2 : usub (rest.length + 1 + 1) 2 = rest.length := usub_eq (by omega) (by omega)
    have u3 : usub (rest.length + 1) 1 = rest.length := usub_eq (by omega) (by omega)
    rw [Xmss.treehashMerge] at hm
    rw [List.length_cons, treehashMerge, if_pos (by omega), u1, u2, g1, g2]
    simp only [Option.bind_eq_bind]
    rw [Option.bind_some, Option.bind_some, Option.bind_some]
    by_cases heq : h = h2
    · rw [if_pos heq] at hm
      rw [if_pos (by simpa using heq)]
      subst heq
      -- the height is bounded
      have hW' : 2 ^ h + (2 ^ h + weight rest) ≤ 2 ^ p.tree_height := by
        simpa [weight] using hW
      have hh : h + 1 ≤ p.tree_height := by
        have : 2 ^ (h + 1) ≤ 2 ^ p.tree_height := by rw [pow_succ]; omega
        exact (Nat.pow_le_pow_iff_right (by omega)).mp this
      rw [Option.bind_some]
      have hsh : ∀ x, shr32 x (h + 1) = some (x >>> (h + 1)) := fun x => by unfold shr32; rw [if_neg (by omega)]
      rw [w32_lt (x := h + 1) (by omega), hsh]
      rw [Option.bind_some]
      have hofs : rest.length * p.n < 2 ^ 32 := by
        have : rest.length * p.n ≤ (p.tree_height + 1) * p.n := Nat.mul_le_mul_right _ (by omega)
        omega
      rw [w32_lt hofs, mk_add, Nat.zero_add]
      -- hashing the two top nodes in place
      have hSe : S = ((rest.reverse.map Prod.fst).flatten).map some ++ (node2 ++ node).map some ++ J := by
        rw [hJ]; simp
      have hld : load (X ++ [S]) ⟨m.length, rest.length * p.n⟩ (2 * p.n) = some (node2 ++ node) := by
        rw [← hXl, load_right0, load_cons_zero]
        exact read_eq_some.mpr ⟨_, _, hSe, by rw [List.length_map, hrf], by simp [hnl, hnl2]; omega⟩
      have hsX : load (X ++ [S]) pubSeed p.n = some s := by
        have hs' : load X pubSeed p.n = some s := by
          rw [load_storeC_disj hX (by rw [cflat_length hA.mem, hA.clen]; exact d), hs]
        rw [load_left (load_blk hs'), hs']
      rw [thashH_of hH hl f hld hsX (by simp [hXl])]
      dsimp only at hm
      generalize hq : Xmss.thashH H p (node2 ++ node) s (setTreeIndex (setTreeHeight a h) (idx >>> (h + 1))) = q at hm
      have hql : q.1.length = p.n := by rw [← hq]; exact thashH_length hl _ _ _
      have hw : Block.write S (rest.length * p.n) q.1 =
          some (((rest.reverse.map Prod.fst).flatten).map some ++ q.1.map some ++ (node.map some ++ J)) := by
        refine write_eq_some.mpr ⟨((rest.reverse.map Prod.fst).flatten).map some, node2.map some, node.map some ++ J, ?_, by rw [List.length_map, hrf],
          by simp [hnl2, hql], rfl⟩
        rw [hSe]; simp
      rw [← hXl, store_right0, store_cons_zero, hw]
      simp only [Option.map_some]
      rw [Option.bind_some]
      dsimp only
      rw [u3, g2, Option.bind_some]
      have hus : uset hts rest.length (h + 1) = some ((rest.reverse.map fun c => some c.2) ++ some (h + 1) :: (some h :: JH)) := by
        rw [e1]; exact usetTop rfl
      rw [w32_lt (x := h + 1) (by omega), hus, Option.bind_some]
      have g3 : uget ((rest.reverse.map fun c => some c.2) ++ some (h + 1) :: (some h :: JH)) rest.length = some (h + 1) :=
        ugetTop (c := (node2, h + 1)) rfl
      rw [g3, Option.bind_some, hsh, Option.bind_some]
      have hS' : StkMem p ((q.1, h + 1) :: rest)
          (((rest.reverse.map Prod.fst).flatten).map some ++ q.1.map some ++ (node.map some ++ J))
          ((rest.reverse.map fun c => some c.2) ++ some (h + 1) :: (some h :: JH)) := by
        refine ⟨⟨node.map some ++ J, by simp⟩, ?_, ⟨some h :: JH, by simp⟩, ?_, ?_⟩
        · rw [← hSl, hSe]; simp [hql, hnl, hnl2]
        · rw [← hHl, e1]; simp
        · intro c hc
          rcases List.mem_cons.mp hc with rfl | hc
          · exact hql
          · exact hrest c hc
      have hW2 : weight ((q.1, h + 1) :: rest) = weight ((node, h) :: (node2, h) :: rest) := by
        simp [weight, pow_succ]; omega
      by_cases hau : leafIdx >>> (h + 1) ^^^ 1 = idx >>> (h + 1)
      · rw [if_pos hau] at hm ⊢
        have hj : h + 1 < p.tree_height := by
          by_contra hc
          unfold setAuth at hm
          rw [if_neg (by have := hA.len; omega)] at hm
          simp at hm
        rw [setAuth_some (by rw [hA.len]; exact hj)] at hm
        simp only [Option.bind_eq_bind, Option.bind_some] at hm
        have hjn : (h + 1) * p.n ≤ p.tree_height * p.n := Nat.mul_le_mul_right _ (by omega)
        have hjm : p.tree_height * p.n ≤ (p.tree_height + 1) * p.n := Nat.mul_le_mul_right _ (by omega)
        rw [w32_lt (x := (h + 1) * p.n) (by omega), w32_lt hofs, mk_add X.length, Nat.zero_add]
        obtain ⟨X', h1, h2⟩ := storeC_node hX hA.mem (j := h + 1) (by rw [hA.clen]; exact hj) hql
        rw [memcpy_eq (x := q.1)]
        rotate_left
        · rw [load_right0, load_cons_zero]
          exact read_eq_some.mpr ⟨_, _, rfl, by rw [List.length_map, hrf], hql⟩
        · exact Disj.of_blk (by simp; omega)
        rw [store_left (by simp; omega), h2]
        simp only [Option.map_some]
        rw [Option.bind_some]
        obtain ⟨X2, S2, hts2, Cs2, k1, k2, k3, k4, k5⟩ := ih fuel q.1 (h + 1) (auth.set (h + 1) q.1) auth' stk' q.2 a' X' _ _ _
          (by simp at hf; omega) hm h1 (hA.set hj hql) hS' (by rw [hW2]; exact hW)
        refine ⟨X2, S2, hts2, Cs2, k1, k2, k3, by rw [k4, hW2], ?_⟩
        rw [hXl]
        exact k5
      · rw [if_neg hau] at hm ⊢
        simp only [Option.bind_eq_bind, Option.bind_some] at hm
        rw [Option.bind_some]
        obtain ⟨X2, S2, hts2, Cs2, k1, k2, k3, k4, k5⟩ := ih fuel q.1 (h + 1) auth auth' stk' q.2 a' X _ _ _
          (by simp at hf; omega) hm hX hA hS' (by rw [hW2]; exact hW)
        refine ⟨X2, S2, hts2, Cs2, k1, k2, k3, by rw [k4, hW2], ?_⟩
        rw [hXl]
        exact k5
    · rw [if_neg heq, Option.some.injEq, Prod.mk.injEq, Prod.mk.injEq] at hm
      obtain ⟨rfl, rfl, rfl⟩ := hm
      rw [if_neg (by simpa using heq)]
      exact ⟨X, S, hts, Cs, hX, hA, ⟨⟨J, hJ⟩, hSl, ⟨JH, hJH⟩, hHl, hlen⟩, rfl, rfl⟩

theorem treehashLoop_of (hH : Xmss.coreHash P p.func p.n = some H) (hl : ∀ x, (H x).length = p.n) (g : p.Good)
    (hsz : (p.tree_height + 1) * p.n < 2 ^ 32) {m : Mem} {authp skSeed pubSeed : Ptr} {k s : Bytes} {leafIdx : Nat}
    (hk : load m skSeed p.n = some k) (hs : load m pubSeed p.n = some s) (dk : Disj skSeed p.n authp (p.tree_height * p.n))
    (d : Disj pubSeed p.n authp (p.tree_height * p.n)) (hab : authp.blk < m.length) :
    ∀ (cnt idx : Nat) (stk stk' : List (Bytes × Nat)) (auth auth' : List Bytes) (oa la na : Addr) (X : Mem) (S : Block) (hts : UArr)
      (Cs : List Block),
      Xmss.treehashLoop H p k s leafIdx cnt idx stk auth oa la na = some (stk', auth') →
      storeC m authp Cs.flatten = some X → AuthMem p auth Cs → StkMem p stk S hts → weight stk = idx → idx + cnt ≤ 2 ^ p.tree_height →
      ∃ X' S' hts' Cs', storeC m authp Cs'.flatten = some X' ∧ AuthMem p auth' Cs' ∧ StkMem p stk' S' hts' ∧
        treehashLoop P p ⟨m.length, 0⟩ authp skSeed pubSeed leafIdx cnt idx hts stk.length oa la na (X ++ [S]) =
          some (X' ++ [S']) := by
  have hn := g.n_pos
  have hth := g.th_lt
  intro cnt
  induction cnt with
  | zero =>
    intro idx stk stk' auth auth' oa la na X S hts Cs hm hX hA hS _ _
    rw [Xmss.treehashLoop, Option.some.injEq, Prod.mk.injEq] at hm
    obtain ⟨rfl, rfl⟩ := hm
    exact ⟨X, S, hts, Cs, hX, hA, hS, rfl⟩
  | succ cnt ih =>
    intro idx stk stk' auth auth' oa la na X S hts Cs hm hX hA hS hW hi
    have hXl := storeC_length hX
    rw [Xmss.treehashLoop] at hm
    by_cases hfull : p.tree_height + 1 ≤ stk.length
    · rw [if_pos hfull] at hm; simp at hm
    rw [if_neg hfull] at hm
    obtain ⟨⟨J, hJ⟩, hSl, ⟨JH, hJH⟩, hHl, hlen⟩ := hS
    have hrf : ((stk.reverse.map Prod.fst).flatten).length = stk.length * p.n := by
      rw [flatten_length_of (n := p.n)]
      · simp
      · intro x hx
        obtain ⟨c, hc, rfl⟩ := List.mem_map.mp hx
        exact hlen c (List.mem_reverse.mp hc)
    have hle : (stk.length + 1) * p.n ≤ (p.tree_height + 1) * p.n := Nat.mul_le_mul_right _ (by omega)
    have hle' : stk.length * p.n + p.n ≤ (p.tree_height + 1) * p.n := by rw [← Nat.succ_mul]; exact hle
    have hofs : stk.length * p.n < 2 ^ 32 := by omega
    have hkX : load X skSeed p.n = some k := by
      rw [load_storeC_disj hX (by rw [cflat_length hA.mem, hA.clen]; exact dk), hk]
    have hsX : load X pubSeed p.n = some s := by
      rw [load_storeC_disj hX (by rw [cflat_length hA.mem, hA.clen]; exact d), hs]
    rw [treehashLoop, w32_lt hofs, mk_add, Nat.zero_add, ← hXl]
    have hvl : Valid (X ++ [S]) ⟨X.length, stk.length * p.n⟩ p.n := ⟨S, by simp, by rw [hSl]; exact hle'⟩
    obtain ⟨hgl, M1, h1, h2⟩ := genLeafWots_of hH hl g (skSeed := skSeed) (pubSeed := pubSeed) (k := k) (s := s)
      (by rw [load_left (load_blk hkX), hkX]) (by rw [load_left (load_blk hsX), hsX]) hvl (setLtreeAddr la idx) (setOtsAddr oa idx)
    generalize hq : Xmss.genLeafWots H p k s (setLtreeAddr la idx) (setOtsAddr oa idx) = q at hm h1 h2 hgl
    -- the block after the push
    obtain ⟨j0, J1, hJs, hj0⟩ : ∃ j0 J1, J = j0 ++ J1 ∧ j0.length = p.n := by
      refine ⟨J.take p.n, J.drop p.n, (List.take_append_drop _ _).symm, ?_⟩
      have := congrArg List.length hJ
      rw [List.length_append, List.length_map, hrf, hSl] at this
      simp; omega
    obtain ⟨t0, JH1, hJHs⟩ : ∃ t0 JH1, JH = t0 :: JH1 := by
      cases JH with
      | nil => have := congrArg List.length hJH; simp at this; omega
      | cons t0 JH1 => exact ⟨t0, JH1, rfl⟩
    have hw : Block.write S (stk.length * p.n) q.1 =
        some (((stk.reverse.map Prod.fst).flatten).map some ++ q.1.map some ++ J1) := by
      refine write_eq_some.mpr ⟨((stk.reverse.map Prod.fst).flatten).map some, j0, J1, by rw [hJ, hJs]; simp, by rw [List.length_map, hrf],
        by rw [hj0, hgl], rfl⟩
    rw [store_right0, store_cons_zero, hw, Option.map_some, Option.map_some, Option.some.injEq] at h1
    subst h1
    rw [h2]
    simp only [Option.bind_eq_bind]
    rw [Option.bind_some]
    dsimp only
    rw [w32_lt (x := stk.length + 1) (by omega), usub_eq (a := stk.length + 1) (by omega) (by omega), Nat.add_sub_cancel]
    have hus : uset hts stk.length 0 = some ((stk.reverse.map fun c => some c.2) ++ some 0 :: JH1) := by
      rw [hJH, hJHs]; exact usetTop rfl
    rw [hus, Option.bind_some, w32_lt hofs, mk_add, Nat.zero_add]
    have hS' : StkMem p ((q.1, 0) :: stk) (((stk.reverse.map Prod.fst).flatten).map some ++ q.1.map some ++ J1)
        ((stk.reverse.map fun c => some c.2) ++ some 0 :: JH1) := by
      refine ⟨⟨J1, by simp⟩, ?_, ⟨JH1, by simp⟩, ?_, ?_⟩
      · rw [← hSl, hJ, hJs]; simp [hgl, hj0]
      · rw [← hHl, hJH, hJHs]; simp
      · intro c hc
        rcases List.mem_cons.mp hc with rfl | hc
        · exact hgl
        · exact hlen c hc
    have hW2 : weight ((q.1, 0) :: stk) = idx + 1 := by
      have : weight ((q.1, 0) :: stk) = 1 + weight stk := by simp [weight]
      omega
    -- finishing an iteration
    have cont : ∀ (auth1 : List Bytes) (X1 : Mem) (Cs1 : List Block), storeC m authp Cs1.flatten = some X1 → AuthMem p auth1 Cs1 →
        ((Xmss.treehashMerge H p s leafIdx idx q.1 0 stk auth1 na).bind fun s_1 =>
          Xmss.treehashLoop H p k s leafIdx cnt (idx + 1) s_1.1 s_1.2.1 q.2.2 q.2.1 s_1.2.2) = some (stk', auth') →
        ∃ X' S' hts' Cs', storeC m authp Cs'.flatten = some X' ∧ AuthMem p auth' Cs' ∧ StkMem p stk' S' hts' ∧
          ((treehashMerge P p ⟨X.length, 0⟩ authp pubSeed leafIdx idx (p.tree_height + 2)
            ((stk.reverse.map fun c => some c.2) ++ some 0 :: JH1) (stk.length + 1)
            (X1 ++ [((stk.reverse.map Prod.fst).flatten).map some ++ q.1.map some ++ J1]) na).bind fun s_1 =>
            treehashLoop P p ⟨X.length, 0⟩ authp skSeed pubSeed leafIdx cnt (idx + 1) s_1.2.1 s_1.2.2.1 q.2.2 q.2.1 s_1.2.2.2 s_1.1) =
            some (X' ++ [S']) := by
      intro auth1 X1 Cs1 hX1 hA1 hm1
      obtain ⟨⟨stk2, auth2, a2⟩, hmm, hm2⟩ := Option.bind_eq_some_iff.mp hm1
      obtain ⟨X2, S2, hts2, Cs2, k1, k2, k3, k4, k5⟩ := treehashMerge_of hH hl (fits_of_good g) hth hsz hs d hab stk (p.tree_height + 2) q.1 0 auth1 auth2
        stk2 na a2 X1 _ _ Cs1 (by omega) hmm hX1 hA1 hS' (by omega)
      rw [hXl, k5, Option.bind_some]
      exact ih (idx + 1) stk2 stk' auth2 auth' q.2.2 q.2.1 a2 X2 S2 hts2 Cs2 hm2 k1 k2 k3 (by omega) (by omega)
    by_cases hau : leafIdx ^^^ 1 = idx
    · rw [if_pos hau] at hm ⊢
      have hth0 := g.th_pos
      rw [setAuth_some (by rw [hA.len]; exact hth0)] at hm
      simp only [Option.bind_eq_bind] at hm
      rw [Option.bind_some] at hm
      obtain ⟨X', h3, h4⟩ := storeC_node hX hA.mem (j := 0) (by rw [hA.clen]; exact hth0) hgl
      rw [Nat.zero_mul, add_zero'] at h4
      rw [memcpy_eq (x := q.1)]
      rotate_left
      · rw [load_right0, load_cons_zero]
        exact read_eq_some.mpr ⟨_, _, rfl, by rw [List.length_map, hrf], hgl⟩
      · exact Disj.of_blk (by simp; omega)
      rw [store_left (by omega), h4]
      simp only [Option.map_some]
      rw [Option.bind_some]
      exact cont _ X' _ h3 (hA.set hth0 hgl) hm
    · rw [if_neg hau] at hm ⊢
      simp only [Option.bind_eq_bind] at hm
      rw [Option.bind_some] at hm ⊢
      exact cont auth X Cs hX hA hm

theorem AuthMem.full {auth : List Bytes} {Cs : List Block} (h : AuthMem p auth Cs) (hn : 0 < p.n) (hx : ∀ x ∈ auth, x.length = p.n) :
    Cs.flatten = auth.flatten.map some := by
  have e : Cs = auth.map (List.map some) := by
    apply List.ext_getElem
    · rw [List.length_map, h.len, h.clen]
    · intro j h1 h2
      rw [h.clen] at h1
      have hal := h.len; have hcl := h.clen
      have hj := h.val j h1
      rw [List.getD_eq_getElem _ _ (by omega), List.getD_eq_getElem _ _ (by omega)] at hj
      rcases hj with hj | hj
      · have := hx auth[j] (List.getElem_mem _)
        rw [hj] at this
        simp at this; omega
      · rw [hj, List.getElem_map]
  rw [e, List.map_flatten]

/-- `treehash` writes the authentication path and then the root. -/
theorem treehash_of (hH : Xmss.coreHash P p.func p.n = some H) (hl : ∀ x, (H x).length = p.n) (g : p.Good)
    {m : Mem} {root authp skSeed pubSeed : Ptr} {k s : Bytes} {leafIdx : Nat} {sub : Addr} {layer tree : Nat}
    (hk : load m skSeed p.n = some k) (hs : load m pubSeed p.n = some s) (dk : Disj skSeed p.n authp (p.tree_height * p.n))
    (d : Disj pubSeed p.n authp (p.tree_height * p.n)) (hva : Valid m authp (p.tree_height * p.n)) (hvr : Valid m root p.n)
    (hsz : (p.tree_height + 1) * p.n < 2 ^ 32) (hleaf : leafIdx < 2 ^ p.tree_height)
    (h0 : sub.a0 = UInt32.ofNat layer) (h1 : sub.a1 = UInt32.ofNat (tree >>> 32)) (h2 : sub.a2 = UInt32.ofNat tree) :
    ∃ m1 m2, store m authp ((suiteOf p H).authPath k s layer tree leafIdx).flatten = some m1 ∧
      store m1 root ((suiteOf p H).treeRoot k s layer tree) = some m2 ∧
      treehash P p m root authp skSeed pubSeed leafIdx sub = some m2 := by
  have hn := g.n_pos; have hth := g.th_lt; have hth0 := g.th_pos
  have hT := treehash_eq g hl (layer := layer) (tree := tree) k s hleaf sub (List.replicate p.tree_height []) h0 h1 h2 (by simp)
  unfold Xmss.treehash at hT
  simp only [Option.bind_eq_bind] at hT
  obtain ⟨⟨stk, auth⟩, hloop, hT⟩ := Option.bind_eq_some_iff.mp hT
  dsimp only at hT
  cases hgl : stk.getLast? with
  | none => rw [hgl] at hT; simp at hT
  | some top =>
  rw [hgl] at hT
  simp only [Option.some.injEq, Prod.mk.injEq] at hT
  obtain ⟨hroot, hauth⟩ := hT
  obtain ⟨C, hC1, hC2⟩ := hva.storeC
  -- the initial array of the authentication path
  obtain ⟨Cs, hCs1, hCs2, hCs3⟩ : ∃ Cs : List Block, Cs.flatten = C ∧ Cs.length = p.tree_height ∧ ∀ x ∈ Cs, x.length = p.n := by
    have key : ∀ (t : Nat) (C : Block), C.length = t * p.n → ∃ Cs : List Block, Cs.flatten = C ∧ Cs.length = t ∧ ∀ x ∈ Cs, x.length = p.n := by
      intro t
      induction t with
      | zero => intro C h; exact ⟨[], by simpa using (List.eq_nil_of_length_eq_zero (by simpa using h)).symm, rfl, by simp⟩
      | succ t ih =>
        intro C h
        rw [Nat.succ_mul] at h
        obtain ⟨Cs, c1, c2, c3⟩ := ih (C.drop p.n) (by simp; omega)
        refine ⟨C.take p.n :: Cs, by rw [List.flatten_cons, c1, List.take_append_drop], by simp [c2], ?_⟩
        intro x hx
        rcases List.mem_cons.mp hx with rfl | hx
        · simp; omega
        · exact c3 x hx
    exact key _ C hC1
  have hpos : 0 < (p.tree_height + 1) * p.n := Nat.mul_pos (by omega) hn
  obtain ⟨X, S, hts, Cs', k1, k2, k3, k4⟩ := treehashLoop_of hH hl g hsz hk hs dk d hva.blk (2 ^ p.tree_height) 0 [] stk
    (List.replicate p.tree_height []) auth (setType (copySubtreeAddr Addr.zero sub) typeOts)
    (setType (copySubtreeAddr Addr.zero sub) typeLtree) (setType (copySubtreeAddr Addr.zero sub) typeHashtree) m
    (List.replicate ((p.tree_height + 1) * p.n) none) (List.replicate (p.tree_height + 1) none) Cs hloop (by rw [hCs1]; exact hC2)
    ⟨by simp, hCs2, hCs3, by intro j hj; left; simp [List.getD_eq_getElem?_getD, List.getElem?_replicate, hj]⟩
    ⟨⟨_, by simp; rfl⟩, by simp, ⟨_, by simp; rfl⟩, by simp, by simp⟩ (by simp [weight]) (by omega)
  have hal : ∀ x ∈ auth, x.length = p.n := by
    rw [hauth]; exact fun x hx => authPath_mem_length g hl k s layer tree leafIdx x hx
  rw [k2.full hn hal, storeC_map, hauth] at k1
  -- the root is at the bottom of the stack
  obtain ⟨⟨J, hJ⟩, _, _, _, hlen⟩ := k3
  obtain ⟨ini, hini⟩ : ∃ ini, stk = ini ++ [top] := by
    have := List.getLast?_eq_some_iff.mp hgl
    exact this
  have htl : top.1.length = p.n := hlen top (by rw [hini]; simp)
  have hXl := store_length k1
  have hld : load (X ++ [S]) ⟨m.length, 0⟩ p.n = some top.1 := by
    rw [← hXl, load_right0, load_cons_zero]
    refine read_eq_some.mpr ⟨[], ((ini.reverse.map Prod.fst).flatten).map some ++ J, ?_, rfl, htl⟩
    rw [hJ, hini]
    simp
  obtain ⟨m2, h3⟩ := (hvr.after k1).store (x := top.1) (by omega)
  refine ⟨X, m2, k1, by rw [← hroot]; exact h3, ?_⟩
  unfold treehash
  rw [w32_lt (x := p.tree_height + 1) (by omega), w32_lt hsz, alloc_pos hpos]
  simp only [Option.bind_eq_bind]
  rw [Option.bind_some]
  dsimp only
  rw [if_neg (by omega)]
  unfold oneShift
  rw [if_neg (by omega), Option.bind_some, Nat.one_shiftLeft]
  rw [List.length_nil] at k4
  rw [k4, Option.bind_some, memcpy_eq hld (Disj.of_blk (by have := hvr.blk; simp; omega)), store_left (by rw [hXl]; exact hvr.blk), h3]
  simp only [Option.map_some]
  rw [Option.bind_some, release_append (by rw [store_length h3, hXl])]

end treehash

end Xmss.Low
