import Verif.Proof.LowWots
/-
Model/Low refines the first model: xmss_commons.c (trees).
-/
namespace Xmss.Low

/-! ### Arrays of nodes -/

section nodes
variable {n : Nat}

theorem split_at {l : List Bytes} {i : Nat} (hi : i < l.length) : l = l.take i ++ l.getD i [] :: l.drop (i + 1) := by
  rw [List.getD_eq_getElem _ _ hi, ← List.drop_eq_getElem_cons hi, List.take_append_drop]

theorem take_flat_length {l : List Bytes} (h : ∀ x ∈ l, x.length = n) {i : Nat} (hi : i ≤ l.length) :
    (l.take i).flatten.length = i * n := by
  rw [flatten_length_of (n := n) (fun x hx => h x (List.mem_of_mem_take hx)), List.length_take, Nat.min_eq_left hi]

theorem getD_length {l : List Bytes} (h : ∀ x ∈ l, x.length = n) {i : Nat} (hi : i < l.length) : (l.getD i []).length = n := by
  rw [List.getD_eq_getElem _ _ hi]; exact h _ (List.getElem_mem hi)

theorem load_node {m0 m : Mem} {q : Ptr} {l : List Bytes} (h : store m0 q l.flatten = some m) (hl : ∀ x ∈ l, x.length = n) {i : Nat}
    (hi : i < l.length) : load m (q + i * n) n = some (l.getD i []) := by
  have e := split_at hi
  have e2 : l.flatten = (l.take i).flatten ++ l.getD i [] ++ (l.drop (i + 1)).flatten := by
    conv_lhs => rw [e]
    simp
  rw [e2] at h
  have := load_store h
  rwa [take_flat_length hl (by omega), getD_length hl hi] at this

theorem load_pair {m0 m : Mem} {q : Ptr} {l : List Bytes} (h : store m0 q l.flatten = some m) (hl : ∀ x ∈ l, x.length = n) {i : Nat}
    (hi : i + 1 < l.length) : load m (q + i * n) (2 * n) = some (l.getD i [] ++ l.getD (i + 1) []) := by
  have h1 := load_node h hl (i := i) (by omega)
  have h2 := load_node h hl (i := i + 1) (by omega)
  rw [show q + (i + 1) * n = q + i * n + n by rw [add_add]; congr 1; ring] at h2
  have := load_join h1 h2
  rwa [← Nat.two_mul] at this

theorem store_node {m0 m : Mem} {q : Ptr} {l : List Bytes} (h : store m0 q l.flatten = some m) (hl : ∀ x ∈ l, x.length = n) {i : Nat}
    (hi : i < l.length) {x : Bytes} (hx : x.length = n) : store m (q + i * n) x = store m0 q (l.set i x).flatten := by
  have e := split_at hi
  have e2 : l.flatten = (l.take i).flatten ++ l.getD i [] ++ (l.drop (i + 1)).flatten := by
    conv_lhs => rw [e]
    simp
  rw [e2] at h
  have := store_mid (B' := x) h (by rw [hx, getD_length hl hi])
  rw [take_flat_length hl (by omega)] at this
  rw [this, List.set_eq_take_append_cons_drop, if_pos hi]
  simp

theorem mem_set_length {l : List Bytes} (hl : ∀ x ∈ l, x.length = n) {i : Nat} {x : Bytes} (hx : x.length = n) :
    ∀ y ∈ l.set i x, y.length = n := by
  intro y hy
  rcases List.mem_or_eq_of_mem_set hy with h | h
  · exact hl y h
  · rw [h, hx]

end nodes

section tree
variable {P : Prims} {H : Bytes → Bytes} {p : Params}

theorem ltreeRow_facts (hl : ∀ x, (H x).length = p.n) (s : Bytes) : ∀ (k i : Nat) (nodes : List Bytes) (a : Addr),
    (∀ x ∈ nodes, x.length = p.n) →
    (Xmss.ltreeRow H p s k i nodes a).1.length = nodes.length ∧ ∀ x ∈ (Xmss.ltreeRow H p s k i nodes a).1, x.length = p.n := by
  intro k
  induction k with
  | zero => intro i nodes a h; exact ⟨rfl, h⟩
  | succ k ih =>
    intro i nodes a h
    rw [Xmss.ltreeRow]
    have := ih (i + 1) (nodes.set i (Xmss.thashH H p (nodes.getD (2 * i) [] ++ nodes.getD (2 * i + 1) []) s (setTreeIndex a i)).1)
      (Xmss.thashH H p (nodes.getD (2 * i) [] ++ nodes.getD (2 * i + 1) []) s (setTreeIndex a i)).2
      (mem_set_length h (thashH_length hl _ _ _))
    refine ⟨by rw [this.1, List.length_set], this.2⟩

theorem ltreeRow_of (hH : Xmss.coreHash P p.func p.n = some H) (hl : ∀ x, (H x).length = p.n) (f : Fits p) {m0 : Mem}
    {pk pubSeed : Ptr} {s : Bytes} {L : Nat} (hs : load m0 pubSeed p.n = some s) (d : Disj pubSeed p.n pk (L * p.n))
    (hL : L * p.n < 2 ^ 32) : ∀ (k i : Nat) (m : Mem) (nodes : List Bytes) (a : Addr),
    (∀ x ∈ nodes, x.length = p.n) → nodes.length = L → 2 * (i + k) ≤ L → store m0 pk nodes.flatten = some m →
    ∃ m', store m0 pk (Xmss.ltreeRow H p s k i nodes a).1.flatten = some m' ∧
      ltreeRow P p pk pubSeed k i m a = some (m', (Xmss.ltreeRow H p s k i nodes a).2) := by
  have hn := f.n_pos
  intro k
  induction k with
  | zero => intro i m nodes a _ _ _ hm; exact ⟨m, hm, rfl⟩
  | succ k ih =>
    intro i m nodes a hx hlen hk hm
    have hfl : nodes.flatten.length = L * p.n := by rw [flatten_length_of hx, hlen]
    have h1 : i * p.n ≤ L * p.n := Nat.mul_le_mul_right _ (by omega)
    have h2 : 2 * i * p.n ≤ L * p.n := Nat.mul_le_mul_right _ (by omega)
    have h2' : 2 * i * 1 ≤ 2 * i * p.n := Nat.mul_le_mul_left _ hn
    rw [ltreeRow, Xmss.ltreeRow]
    rw [w32_lt (x := i * p.n) (by omega), w32_lt (x := i * 2) (by omega), Nat.mul_comm i 2, w32_lt (x := 2 * i * p.n) (by omega)]
    have hsm : load m pubSeed p.n = some s := by rw [load_store_disj hm (by rw [hfl]; exact d), hs]
    have hld := load_pair hm hx (i := 2 * i) (by omega)
    rw [thashH_of hH hl f hld hsm (by simpa using load_blk hld)]
    rw [store_node hm hx (by omega) (thashH_length hl _ _ _)]
    have hx' := mem_set_length hx (i := i)
      (thashH_length (p := p) hl (nodes.getD (2 * i) [] ++ nodes.getD (2 * i + 1) []) s (setTreeIndex a i))
    obtain ⟨m1, h3⟩ := (valid_of_store hm).store
      (x := (nodes.set i (Xmss.thashH H p (nodes.getD (2 * i) [] ++ nodes.getD (2 * i + 1) []) s (setTreeIndex a i)).1).flatten)
      (by rw [flatten_length_of hx', List.length_set, flatten_length_of hx])
    rw [h3]
    simp only [Option.bind_eq_bind, Option.map_some]
    rw [Option.bind_some]
    exact ih (i + 1) m1 _ _ hx' (by rw [List.length_set, hlen]) (by omega) h3

theorem ltreeLoop_of (hH : Xmss.coreHash P p.func p.n = some H) (hl : ∀ x, (H x).length = p.n) (f : Fits p) {m0 : Mem}
    {pk pubSeed : Ptr} {s : Bytes} {L : Nat} (hs : load m0 pubSeed p.n = some s) (d : Disj pubSeed p.n pk (L * p.n))
    (hL : L * p.n < 2 ^ 32) : ∀ (fuel l height : Nat) (m : Mem) (nodes : List Bytes) (a : Addr),
    (∀ x ∈ nodes, x.length = p.n) → nodes.length = L → l ≤ L → l ≤ fuel → height + l ≤ L → 0 < l → store m0 pk nodes.flatten = some m →
    ∃ m', store m0 pk (Xmss.ltreeLoop H p s fuel l height nodes a).1.flatten = some m' ∧
      (Xmss.ltreeLoop H p s fuel l height nodes a).1.length = L ∧
      (∀ x ∈ (Xmss.ltreeLoop H p s fuel l height nodes a).1, x.length = p.n) ∧
      ltreeLoop P p pk pubSeed (fuel + 1) l height m a = some (m', (Xmss.ltreeLoop H p s fuel l height nodes a).2) := by
  have hn := f.n_pos
  have hLL : L * 1 ≤ L * p.n := Nat.mul_le_mul_left _ hn
  intro fuel
  induction fuel with
  | zero => intro l height m nodes a _ _ _ h1 _ h2; omega
  | succ fuel ih =>
    intro l height m nodes a hx hlen hl1 hf hh h0 hm
    rw [ltreeLoop, Xmss.ltreeLoop]
    by_cases hle : l ≤ 1
    · rw [if_neg (show ¬ 1 < l by omega), if_pos hle]
      exact ⟨m, hm, hlen, hx, rfl⟩
    · rw [if_pos (show 1 < l by omega), if_neg hle]
      have hsr : l >>> 1 = l / 2 := by simp [Nat.shiftRight_eq_div_pow]
      have hand : l &&& 1 = l % 2 := Nat.and_one_is_mod l
      obtain ⟨m1, h1, h2⟩ := ltreeRow_of hH hl f hs d hL (l >>> 1) 0 m nodes a hx hlen (by omega) hm
      obtain ⟨r1, r2⟩ := ltreeRow_facts (p := p) hl s (l >>> 1) 0 nodes a hx
      rw [h2]
      simp only [Option.bind_eq_bind]
      rw [Option.bind_some]
      dsimp only
      rw [w32_lt (x := height + 1) (by omega)]
      by_cases hodd : l &&& 1 = 1
      · rw [if_pos hodd, if_pos hodd]
        have e1 : l >>> 1 * p.n ≤ L * p.n := Nat.mul_le_mul_right _ (by omega)
        have e2 : (l - 1) * p.n ≤ L * p.n := Nat.mul_le_mul_right _ (by omega)
        have e3 : (l >>> 1 + 1) * p.n ≤ (l - 1) * p.n := Nat.mul_le_mul_right _ (by omega)
        rw [usub_eq (by omega) (by omega), w32_lt (x := l >>> 1 * p.n) (by omega), w32_lt (x := (l - 1) * p.n) (by omega),
          w32_lt (x := l >>> 1 + 1) (by omega)]
        have hld := load_node h1 r2 (i := l - 1) (by omega)
        have hgl := getD_length r2 (i := l - 1) (by omega)
        rw [memcpy_eq hld (by right; left; rw [Nat.succ_mul] at e3; simp only [add_off]; omega),
          store_node h1 r2 (by omega) hgl]
        have hx' := mem_set_length r2 (i := l >>> 1) hgl
        obtain ⟨m2, h3⟩ := (valid_of_store hm).store
          (x := ((Xmss.ltreeRow H p s (l >>> 1) 0 nodes a).1.set (l >>> 1)
            ((Xmss.ltreeRow H p s (l >>> 1) 0 nodes a).1.getD (l - 1) [])).flatten)
          (by rw [flatten_length_of hx', List.length_set, flatten_length_of hx, r1])
        rw [h3]
        simp only []
        rw [Option.bind_some]
        exact ih (l >>> 1 + 1) (height + 1) m2 _ _ hx' (by rw [List.length_set, r1, hlen]) (by omega) (by omega) (by omega) (by omega) h3
      · rw [if_neg hodd, if_neg hodd]
        exact ih (l >>> 1) (height + 1) m1 _ _ r2 (by rw [r1, hlen]) (by omega) (by omega) (by omega) (by omega) h1

theorem lTree_of (hH : Xmss.coreHash P p.func p.n = some H) (hl : ∀ x, (H x).length = p.n) (g : p.Good) {m0 m : Mem}
    {leaf pk pubSeed : Ptr} {s : Bytes} {nodes : List Bytes} (hs : load m0 pubSeed p.n = some s)
    (d : Disj pubSeed p.n pk (p.wots_len * p.n)) (d2 : Disj leaf p.n pk (p.wots_len * p.n)) (hv : Valid m0 leaf p.n)
    (hx : ∀ x ∈ nodes, x.length = p.n) (hlen : nodes.length = p.wots_len) (hm : store m0 pk nodes.flatten = some m) (a : Addr) :
    (Xmss.lTree H p nodes s a).1.length = p.n ∧
    ∃ y m1 m2, y.length = p.wots_len * p.n ∧ store m0 pk y = some m1 ∧ store m1 leaf (Xmss.lTree H p nodes s a).1 = some m2 ∧
      lTree P p m leaf pk pubSeed a = some (m2, (Xmss.lTree H p nodes s a).2) := by
  have hpos := g.len_pos
  obtain ⟨m1, h1, h2, h3, h4⟩ := ltreeLoop_of hH hl (fits_of_good g) hs d (len_mul_lt g) p.wots_len p.wots_len 0 m nodes (setTreeHeight a 0)
    hx hlen (by omega) (by omega) (by omega) hpos hm
  have hgl := getD_length h3 (i := 0) (by omega)
  refine ⟨hgl, ?_⟩
  have hld := load_node h1 h3 (i := 0) (by omega)
  rw [Nat.zero_mul, add_zero'] at hld
  obtain ⟨m2, h5⟩ := (hv.after h1).store (x := (Xmss.lTree H p nodes s a).1) (by exact le_of_eq hgl)
  refine ⟨_, m1, m2, by rw [flatten_length_of h3, h2], h1, h5, ?_⟩
  unfold lTree
  rw [h4]
  simp only [Option.bind_eq_bind]
  rw [Option.bind_some]
  have hle : 1 * p.n ≤ p.wots_len * p.n := Nat.mul_le_mul_right _ hpos
  rw [memcpy_eq hld (d2.mono le_rfl (by omega))]
  have e : (Xmss.lTree H p nodes s a).1 = (Xmss.ltreeLoop H p s p.wots_len p.wots_len 0 nodes (setTreeHeight a 0)).1.getD 0 [] := rfl
  rw [← e, h5, Option.bind_some]
  rfl

/-! ### compute_root -/

theorem arrange_length {n i : Nat} {x y : Bytes} (hx : x.length = n) (hy : y.length = n) : (arrange i x y).length = 2 * n := by
  unfold arrange
  split <;> simp [hx, hy] <;> omega

theorem computeRootLoop_of (hH : Xmss.coreHash P p.func p.n = some H) (hl : ∀ x, (H x).length = p.n) (f : Fits p) {m : Mem}
    {pubSeed : Ptr} {s : Bytes} (hs : load m pubSeed p.n = some s) : ∀ (nodes : List Bytes) (i leafidx : Nat) (auth : Ptr) (B : Bytes)
    (a : Addr), B.length = 2 * p.n → (∀ x ∈ nodes, x.length = p.n) → load m auth (nodes.length * p.n) = some nodes.flatten →
    ∃ B' li a', B'.length = 2 * p.n ∧
      computeRootLoop P p ⟨m.length, 0⟩ pubSeed nodes.length i leafidx auth (m ++ [B.map some]) a =
        some (m ++ [B'.map some], li, a') ∧
      Xmss.computeRootLoop H p s i leafidx nodes B a =
        Xmss.thashH H p B' s (setTreeIndex (setTreeHeight a' (i + nodes.length)) (li >>> 1)) := by
  intro nodes
  have hn := f.n_pos
  induction nodes with
  | nil =>
    intro i leafidx auth B a hB _ _
    exact ⟨B, leafidx, a, hB, rfl, rfl⟩
  | cons y nodes ih =>
    intro i leafidx auth B a hB hy hau
    have hyl := hy y (by simp)
    simp only [List.length_cons, List.flatten_cons] at hau ⊢
    have ha1 : load m auth p.n = some y := by
      have := load_sub (A := []) (B := y) (C := nodes.flatten) (by simpa using hau)
      simpa [hyl] using this
    have ha2 : load m (auth + p.n) (nodes.length * p.n) = some nodes.flatten := by
      have := load_sub (A := y) (B := nodes.flatten) (C := []) (by simpa using hau)
      rwa [hyl, flatten_length_of (fun x hx => hy x (by simp [hx]))] at this
    have hbm : ∀ b : Block, load (m ++ [b]) auth p.n = some y := fun b => by rw [load_left (load_blk ha1), ha1]
    rw [computeRootLoop, Xmss.computeRootLoop]
    have hld : load (m ++ [B.map some]) ⟨m.length, 0⟩ (2 * p.n) = some B := by
      rw [load_right0, load_cons_zero, read_full hB]
    have hsm : load (m ++ [B.map some]) pubSeed p.n = some s := by rw [load_left (load_blk hs), hs]
    have hne : auth.blk ≠ m.length := by have := load_blk ha1; omega
    generalize hq : Xmss.thashH H p B s (setTreeIndex (setTreeHeight a i) (leafidx >>> 1)) = q
    have hql : q.1.length = p.n := by rw [← hq]; exact thashH_length hl _ _ _
    obtain ⟨B', li, a', h1, h2, h3⟩ := ih (i + 1) (leafidx >>> 1) (auth + p.n) (arrange (leafidx >>> 1) q.1 y) q.2
      (arrange_length hql hyl) (fun x hx => hy x (by simp [hx])) ha2
    refine ⟨B', li, a', h1, ?_, by rw [h3]; congr 3; omega⟩
    rw [← h2]
    by_cases hodd : leafidx >>> 1 &&& 1 = 1
    · rw [if_pos hodd, thashH_of hH hl f hld hsm (by simp), hq]
      have hw : Block.write (B.map some) p.n q.1 = some ((B.take p.n ++ q.1).map some) := by
        refine write_eq_some.mpr ⟨(B.take p.n).map some, (B.drop p.n).map some, [], ?_, ?_, ?_, by simp⟩
        · rw [List.append_nil, ← List.map_append, List.take_append_drop]
        · simp [hB]; omega
        · simp [hB, hql]; omega
      have hw2 : Block.write ((B.take p.n ++ q.1).map some) 0 y = some ((y ++ q.1).map some) := by
        refine write_eq_some.mpr ⟨[], (B.take p.n).map some, q.1.map some, by simp, rfl, ?_, by simp⟩
        simp [hB, hyl]; omega
      rw [mk_add, Nat.zero_add, store_right0, store_cons_zero, hw]
      simp only [Option.map_some, Option.bind_eq_bind]
      rw [Option.bind_some]
      dsimp only
      rw [memcpy_eq (hbm _) (Disj.of_blk (Ne.symm hne)), store_right0, store_cons_zero, hw2]
      simp only [Option.map_some]
      rw [Option.bind_some]
      unfold arrange
      rw [if_pos hodd]
      rfl
    · rw [if_neg hodd, thashH_of hH hl f hld hsm (by simp), hq]
      have hw : Block.write (B.map some) 0 q.1 = some ((q.1 ++ B.drop p.n).map some) := by
        refine write_eq_some.mpr ⟨[], (B.take p.n).map some, (B.drop p.n).map some, ?_, rfl, ?_, by simp⟩
        · rw [List.nil_append, ← List.map_append, List.take_append_drop]
        · simp [hB, hql]; omega
      have hw2 : Block.write ((q.1 ++ B.drop p.n).map some) p.n y = some ((q.1 ++ y).map some) := by
        refine write_eq_some.mpr ⟨q.1.map some, (B.drop p.n).map some, [], by simp, by simp [hql], ?_, by simp⟩
        simp [hB, hyl]; omega
      rw [store_right0, store_cons_zero, hw]
      simp only [Option.map_some, Option.bind_eq_bind]
      rw [Option.bind_some]
      dsimp only
      rw [memcpy_eq (hbm _) (Disj.of_blk (by simpa using Ne.symm hne)), mk_add, Nat.zero_add, store_right0, store_cons_zero, hw2]
      simp only [Option.map_some]
      rw [Option.bind_some]
      unfold arrange
      rw [if_neg hodd]
      rfl

theorem computeRootLoop_length (hl : ∀ x, (H x).length = p.n) (s : Bytes) : ∀ (nodes : List Bytes) (i li : Nat) (B : Bytes) (a : Addr),
    (Xmss.computeRootLoop H p s i li nodes B a).1.length = p.n := by
  intro nodes
  induction nodes with
  | nil => intro i li B a; exact hl _
  | cons y nodes ih => intro i li B a; exact ih _ _ _ _

theorem computeRoot_of (hH : Xmss.coreHash P p.func p.n = some H) (hl : ∀ x, (H x).length = p.n) (f : Fits p) {m : Mem}
    {root leaf auth pubSeed : Ptr} {s x : Bytes} {leafidx : Nat} {nodes : List Bytes} (hs : load m pubSeed p.n = some s)
    (hx : load m leaf p.n = some x) (hth : 0 < p.tree_height) (hth2 : p.tree_height < 2 ^ 32) (hnl : nodes.length = p.tree_height) (hno : ∀ x ∈ nodes, x.length = p.n)
    (hau : load m auth (p.tree_height * p.n) = some nodes.flatten) (hr : Valid m root p.n) (a : Addr) :
    ∃ r m', Xmss.computeRoot H p x leafidx nodes s a = some r ∧ r.1.length = p.n ∧ store m root r.1 = some m' ∧
      computeRoot P p m root leaf leafidx auth pubSeed a = some (m', r.2) := by
  have hn := f.n_pos; have hnlt := f.n_lt
  cases nodes with
  | nil => simp at hnl; omega
  | cons y nodes =>
  have hyl := hno y (by simp)
  have hxl := load_length hx
  simp only [List.length_cons] at hnl
  rw [← hnl] at hau
  simp only [List.flatten_cons] at hau
  have ha1 : load m auth p.n = some y := by
    have := load_sub (A := []) (B := y) (C := nodes.flatten) (by simpa using hau)
    simpa [hyl] using this
  have ha2 : load m (auth + p.n) (nodes.length * p.n) = some nodes.flatten := by
    have := load_sub (A := y) (B := nodes.flatten) (C := []) (by simpa using hau)
    rwa [hyl, flatten_length_of (fun x hx => hno x (by simp [hx]))] at this
  have hbm : ∀ b : Block, load (m ++ [b]) auth p.n = some y := fun b => by rw [load_left (load_blk ha1), ha1]
  have hbl : ∀ b : Block, load (m ++ [b]) leaf p.n = some x := fun b => by rw [load_left (load_blk hx), hx]
  have hne : auth.blk ≠ m.length := by have := load_blk ha1; omega
  have hne2 : leaf.blk ≠ m.length := by have := load_blk hx; omega
  obtain ⟨B', li, a', h1, h2, h3⟩ := computeRootLoop_of hH hl f hs nodes 0 leafidx (auth + p.n) (arrange leafidx x y) a
    (arrange_length hxl hyl) (fun x hx => hno x (by simp [hx])) ha2
  have hrl := computeRootLoop_length (p := p) hl s nodes 0 leafidx (arrange leafidx x y) a
  obtain ⟨m', hm'⟩ := hr.store (x := (Xmss.computeRootLoop H p s 0 leafidx nodes (arrange leafidx x y) a).1) (by omega)
  refine ⟨_, m', rfl, hrl, hm', ?_⟩
  unfold computeRoot
  rw [w32_lt (by omega), alloc_pos (by omega)]
  simp only [Option.bind_eq_bind]
  rw [Option.bind_some]
  dsimp only
  have hfill : (if leafidx &&& 1 = 1 then
        (memcpy (m ++ [List.replicate (2 * p.n) none]) ((⟨m.length, 0⟩ : Ptr) + p.n) leaf p.n).bind fun m1 => memcpy m1 ⟨m.length, 0⟩ auth p.n
      else (memcpy (m ++ [List.replicate (2 * p.n) none]) ⟨m.length, 0⟩ leaf p.n).bind fun m1 =>
        memcpy m1 ((⟨m.length, 0⟩ : Ptr) + p.n) auth p.n) = some (m ++ [(arrange leafidx x y).map some]) := by
    by_cases hodd : leafidx &&& 1 = 1
    · rw [if_pos hodd, memcpy_eq (hbl _) (Disj.of_blk (by simpa using Ne.symm hne2)), mk_add, Nat.zero_add, store_right0, store_cons_zero]
      have hw : Block.write (List.replicate (2 * p.n) none) p.n x = some (List.replicate p.n none ++ x.map some) := by
        refine write_eq_some.mpr ⟨List.replicate p.n none, List.replicate p.n none, [], ?_, by simp, by simp [hxl], by simp⟩
        rw [List.append_nil, List.replicate_append_replicate]; congr 1; omega
      have hw2 : Block.write (List.replicate p.n none ++ x.map some) 0 y = some ((y ++ x).map some) :=
        write_eq_some.mpr ⟨[], List.replicate p.n none, x.map some, by simp, rfl, by simp [hyl], by simp⟩
      rw [hw]
      simp only [Option.map_some]
      rw [Option.bind_some, memcpy_eq (hbm _) (Disj.of_blk (Ne.symm hne)), store_right0, store_cons_zero, hw2]
      unfold arrange
      rw [if_pos hodd]
      rfl
    · rw [if_neg hodd, memcpy_eq (hbl _) (Disj.of_blk (by simpa using Ne.symm hne2)), store_right0, store_cons_zero]
      have hw : Block.write (List.replicate (2 * p.n) none) 0 x = some (x.map some ++ List.replicate p.n none) := by
        refine write_eq_some.mpr ⟨[], List.replicate p.n none, List.replicate p.n none, ?_, by simp, by simp [hxl], by simp⟩
        rw [List.nil_append, List.replicate_append_replicate]; congr 1; omega
      have hw2 : Block.write (x.map some ++ List.replicate p.n none) p.n y = some ((x ++ y).map some) :=
        write_eq_some.mpr ⟨x.map some, List.replicate p.n none, [], by simp, by simp [hxl], by simp [hyl], by simp⟩
      rw [hw]
      simp only [Option.map_some]
      rw [Option.bind_some, memcpy_eq (hbm _) (Disj.of_blk (Ne.symm hne)), mk_add, Nat.zero_add, store_right0, store_cons_zero, hw2]
      unfold arrange
      rw [if_neg hodd]
      rfl
  rw [hfill, Option.bind_some, usub_eq (by omega) (by omega), show p.tree_height - 1 = nodes.length by omega, h2, Option.bind_some]
  dsimp only
  rw [thashH_of hH hl f (x := B') (s := s) (by rw [load_right0, load_cons_zero, read_full h1]) (by rw [load_left (load_blk hs), hs])
    (by have := hr.blk; simp; omega)]
  rw [Nat.zero_add] at h3
  rw [← h3, store_left hr.blk, hm']
  simp only [Option.map_some]
  rw [Option.bind_some]
  dsimp only
  rw [release_append (store_length hm')]

/-! ### gen_leaf_wots -/

theorem wotsPkgen_lengths (hl : ∀ x, (H x).length = p.n) (k s : Bytes) (a : Addr) :
    (Xmss.wotsPkgen H p k s a).1.length = p.wots_len ∧ ∀ x ∈ (Xmss.wotsPkgen H p k s a).1, x.length = p.n := by
  obtain ⟨e1, e2⟩ := expandSeed_lengths (p := p) hl k s a
  have := chainsLoop_lengths (p := p) hl s ((Xmss.expandSeed H p k s a).1.map fun x => (x, 0, p.wots_w - 1)) 0
    (Xmss.expandSeed H p k s a).2 (by intro c hc; obtain ⟨x, hx, rfl⟩ := List.mem_map.mp hc; exact e2 x hx)
  refine ⟨?_, this.2⟩
  have h := this.1
  rw [List.length_map, e1] at h
  exact h

theorem genLeafWots_of (hH : Xmss.coreHash P p.func p.n = some H) (hl : ∀ x, (H x).length = p.n) (g : p.Good) {m : Mem}
    {leaf skSeed pubSeed : Ptr} {k s : Bytes} (hk : load m skSeed p.n = some k) (hs : load m pubSeed p.n = some s)
    (hv : Valid m leaf p.n) (la oa : Addr) :
    (Xmss.genLeafWots H p k s la oa).1.length = p.n ∧
    ∃ m', store m leaf (Xmss.genLeafWots H p k s la oa).1 = some m' ∧
      genLeafWots P p m leaf skSeed pubSeed la oa = some (m', (Xmss.genLeafWots H p k s la oa).2) := by
  have hn := g.n_pos; have hlp := g.len_pos
  have hsb := g.sig_wots
  have hpos : 0 < p.wots_len * p.n := Nat.mul_pos hlp hn
  have hk' : load (m ++ [List.replicate p.wots_sig_bytes none]) skSeed p.n = some k := by rw [load_left (load_blk hk), hk]
  have hs' : load (m ++ [List.replicate p.wots_sig_bytes none]) pubSeed p.n = some s := by rw [load_left (load_blk hs), hs]
  have b1 := load_blk hk; have b2 := load_blk hs; have b3 := hv.blk
  obtain ⟨m1, h1, h2⟩ := wotsPkgen_of hH hl g (out := ⟨m.length, 0⟩) (valid_right (by simp; omega))
    (Disj.of_blk (by simp; omega)) (Disj.of_blk (by simp; omega)) hk' hs' oa
  obtain ⟨e1, e2⟩ := wotsPkgen_lengths (p := p) hl k s oa
  obtain ⟨hll, y, m2, m3, hy, h3, h4, h5⟩ := lTree_of hH hl g (leaf := leaf) (pk := ⟨m.length, 0⟩) hs' (Disj.of_blk (by simp; omega)) (Disj.of_blk (by simp; omega))
    hv.left e2 e1 h1 la
  refine ⟨hll, ?_⟩
  obtain ⟨m', h6⟩ := hv.store (x := (Xmss.genLeafWots H p k s la oa).1) (by exact le_of_eq hll)
  refine ⟨m', h6, ?_⟩
  rw [store_right0, store_cons_zero, write_full (by simp; omega)] at h3
  simp only [Option.map_some, Option.some.injEq] at h3
  subst h3
  have e : (Xmss.genLeafWots H p k s la oa).1 = (Xmss.lTree H p (Xmss.wotsPkgen H p k s oa).1 s la).1 := rfl
  rw [← e, store_left hv.blk, h6, Option.map_some, Option.some.injEq] at h4
  subst h4
  unfold genLeafWots
  rw [alloc_pos (by omega)]
  simp only [Option.bind_eq_bind]
  rw [Option.bind_some]
  dsimp only
  rw [h2, Option.bind_some]
  dsimp only
  rw [h5, Option.bind_some]
  dsimp only
  rw [release_append (store_length h6)]
  rfl

end tree

end Xmss.Low
