import Verif.Proof.LowMem
import Verif.Proof.ShakeLen
/-
Model/Low refines the first model: fips202.c.
-/
namespace Xmss.Low

/-! ### Bytes -/

theorem load_cons {m : Mem} {q : Ptr} {b : UInt8} {bs : Bytes} (h : load m q (bs.length + 1) = some (b :: bs)) :
    load m q 1 = some [b] ∧ load m (q + 1) bs.length = some bs := by
  constructor
  · simpa using load_sub (A := []) (B := [b]) (C := bs) (by simpa using h)
  · simpa using load_sub (A := [b]) (B := bs) (C := []) (by simpa using h)

theorem store_cons (m : Mem) (q : Ptr) (b : UInt8) (bs : Bytes) :
    (store m q [b]).bind (fun m' => store m' (q + 1) bs) = store m q (b :: bs) := store_append m q [b] bs

theorem load64Loop_of {m : Mem} {x : Ptr} : ∀ (bs : Bytes) (i : Nat) (r : Lane), load m (x + i) bs.length = some bs →
    load64Loop m x bs.length i r = some (Xmss.load64Loop i bs r) := by
  intro bs
  induction bs with
  | nil => intro i r _; rfl
  | cons b bs ih =>
    intro i r h
    obtain ⟨h1, h2⟩ := load_cons h
    rw [add_add] at h2
    simp only [List.length_cons, load64Loop, Option.bind_eq_bind, h1, Option.bind_some]
    exact ih (i + 1) _ h2

theorem load64_of {m : Mem} {q : Ptr} {x : Bytes} (hl : x.length = 8) (h : load m q 8 = some x) : load64 m q = some (Xmss.load64 x) := by
  have := load64Loop_of (m := m) (x := q) x 0 0 (by rw [hl]; exact h)
  rw [hl] at this
  rw [load64, this, Xmss.load64, List.take_of_length_le (by omega)]

theorem store64Loop_of {x : Ptr} : ∀ (k i : Nat) (u : Lane) (m : Mem),
    store64Loop x (k + 1) i u m = store m (x + i) (Xmss.store64Loop (k + 1) u) := by
  intro k
  induction k with
  | zero =>
    intro i u m
    simp only [store64Loop, Xmss.store64Loop, Option.bind_eq_bind, Option.bind_fun_some]
  | succ k ih =>
    intro i u m
    refine Eq.trans ?_ (store_cons m (x + i) _ (Xmss.store64Loop (k + 1) (u >>> 8)))
    rw [store64Loop]
    simp only [Option.bind_eq_bind, ih, add_add]

theorem store64_of (m : Mem) (x : Ptr) (u : Lane) : store64 m x u = store m x (Xmss.store64 u) := store64Loop_of 7 0 u m

theorem zeroLoop_of {t : Ptr} : ∀ (k i : Nat) (m : Mem), zeroLoop t (k + 1) i m = store m (t + i) (List.replicate (k + 1) 0) := by
  intro k
  induction k with
  | zero => intro i m; simp only [zeroLoop, Option.bind_eq_bind, Option.bind_fun_some, Nat.zero_add]; rfl
  | succ k ih =>
    intro i m
    refine Eq.trans ?_ (store_cons m (t + i) 0 (List.replicate (k + 1) 0))
    rw [zeroLoop]
    simp only [Option.bind_eq_bind, ih, add_add]

theorem copyLoop_of {dst src : Ptr} (hb : src.blk ≠ dst.blk) : ∀ (x : Bytes) (i : Nat) (m : Mem), x ≠ [] →
    load m (src + i) x.length = some x → copyLoop dst src x.length i m = store m (dst + i) x := by
  intro x
  induction x with
  | nil => intro i m h; exact absurd rfl h
  | cons b x ih =>
    intro i m _ h
    obtain ⟨h1, h2⟩ := load_cons h
    rw [add_add] at h2
    refine Eq.trans ?_ (store_cons m (dst + i) b x)
    rw [List.length_cons, copyLoop]
    simp only [Option.bind_eq_bind, h1, Option.bind_some]
    cases hs : store m (dst + i) [b] with
    | none => rfl
    | some m' =>
      simp only [Option.bind_some]
      by_cases hx : x = []
      · subst hx
        have e := store_append' (y := []) hs
        rw [List.append_nil, hs] at e
        show some m' = _
        rw [← e, add_add]
        rfl
      · rw [ih (i + 1) m' hx (by rw [load_store_disj hs (Disj.of_blk (by simpa using hb))]; exact h2), add_add]

/-! ### Lanes -/

theorem readLanes_map (l : List Lane) : readLanes (l.map some) = some l := by
  induction l with
  | nil => rfl
  | cons x l ih => rw [List.map_cons, readLanes, ih, Option.map_some]

theorem permute_map {l : List Lane} (h : l.length = 25) : permute (l.map some) = some ((keccakPermute l).map some) := by
  rw [permute, if_pos (by rw [List.length_map, h]), readLanes_map, Option.map_some]

theorem lget_map {l : List Lane} {i : Nat} (h : i < l.length) : lget (l.map some) i = some l[i] := by
  rw [lget, List.getElem?_map, List.getElem?_eq_getElem h]
  rfl

theorem lset_map {l : List Lane} {i : Nat} (h : i < l.length) (v : Lane) : lset (l.map some) i v = some ((l.set i v).map some) := by
  rw [lset, if_pos (by rw [List.length_map]; exact h), List.map_set]

theorem clearLanes_25 : clearLanes 25 0 (List.replicate 25 none) = some ((List.replicate 25 (0 : Lane)).map some) := rfl

theorem xorBlock_of {m : Mem} {q : Ptr} : ∀ (k i : Nat) (l : List Lane) (x : Bytes), i + k ≤ l.length → load m (q + 8 * i) (8 * k) = some x →
    xorBlock m q k i (l.map some) = some ((l.take i ++ Xmss.xorBlock k (l.drop i) x).map some) := by
  intro k
  induction k with
  | zero =>
    intro i l x _ _
    rw [xorBlock, Xmss.xorBlock, List.take_append_drop]
  | succ k ih =>
    intro i l x hk h
    have hx := load_length h
    have h8 : load m (q + 8 * i) 8 = some (x.take 8) := by
      have := load_sub' h 0 8 (by omega)
      rwa [List.drop_zero, add_zero'] at this
    have hr : load m (q + 8 * (i + 1)) (8 * k) = some (x.drop 8) := by
      have := load_sub' h 8 (8 * k) (by omega)
      rwa [add_add, show 8 * i + 8 = 8 * (i + 1) by omega, List.take_of_length_le (by rw [List.length_drop]; omega)] at this
    rw [xorBlock]
    simp only [Option.bind_eq_bind]
    rw [load64_of (by rw [List.length_take]; omega) h8, Option.bind_some, lget_map (by omega), Option.bind_some,
      lset_map (by omega), Option.bind_some, ih (i + 1) _ _ (by rw [List.length_set]; omega) hr]
    have e : l.drop i = l[i]'(by omega) :: l.drop (i + 1) := List.drop_eq_getElem_cons (by omega)
    have e64 : Xmss.load64 (x.take 8) = Xmss.load64 x := by
      rw [Xmss.load64, Xmss.load64, List.take_take, Nat.min_self]
    rw [e, Xmss.xorBlock, e64]
    congr 2
    rw [List.drop_set_of_lt (by omega), List.take_set, List.take_succ_eq_append_getElem (by omega)]
    rw [List.set_append_right _ _ (by rw [List.length_take]; omega), List.length_take, Nat.min_eq_left (by omega), Nat.sub_self,
      List.set_cons_zero, List.append_assoc, List.singleton_append]

theorem storeLanes_of {h : Ptr} {l : List Lane} : ∀ (k i : Nat) (m : Mem), i + (k + 1) ≤ l.length →
    storeLanes h (l.map some) (k + 1) i m = store m (h + 8 * i) ((((l.drop i).take (k + 1)).map Xmss.store64).flatten) := by
  intro k
  induction k with
  | zero =>
    intro i m hk
    have e : l.drop i = l[i]'(by omega) :: l.drop (i + 1) := List.drop_eq_getElem_cons (by omega)
    rw [storeLanes, e, List.take_succ_cons]
    simp only [Option.bind_eq_bind, storeLanes, lget_map (show i < l.length by omega), Option.bind_some, Option.bind_fun_some, store64_of, List.take_zero,
      List.map_cons, List.map_nil, List.flatten_cons, List.flatten_nil, List.append_nil]
  | succ k ih =>
    intro i m hk
    have e : l.drop i = l[i]'(by omega) :: l.drop (i + 1) := List.drop_eq_getElem_cons (by omega)
    rw [storeLanes, e, List.take_succ_cons, List.map_cons, List.flatten_cons, ← store_append, store64_length]
    simp only [Option.bind_eq_bind, lget_map (show i < l.length by omega), Option.bind_some, store64_of]
    congr 1
    funext m'
    rw [ih (i + 1) m' (by omega), add_add, show 8 * i + 8 = 8 * (i + 1) by omega]

theorem xorBlock_length (k : Nat) : ∀ (s : List Lane) (m : Bytes), (Xmss.xorBlock k s m).length = s.length := by
  induction k with
  | zero => intro s m; rfl
  | succ k ih =>
    intro s m
    cases s with
    | nil => rfl
    | cons x s => rw [Xmss.xorBlock, List.length_cons, ih, List.length_cons]

/-! ### Squeezing -/

theorem keccakSqueezeblocks_state (r : Nat) : ∀ (k : Nat) (l : List Lane), l.length = 25 → (keccakSqueezeblocks r k l).2.length = 25 := by
  intro k
  induction k with
  | zero => intro l h; exact h
  | succ k ih => intro l _; rw [keccakSqueezeblocks]; exact ih _ (keccakPermute_length _)

theorem squeezeBlocks_of {r : Nat} (hr : r % 8 = 0) (hr0 : 0 < r) (hr2 : r ≤ 200) : ∀ (k : Nat) (h : Ptr) (l : List Lane) (m : Mem),
    l.length = 25 → squeezeBlocks r (k + 1) h (l.map some) m =
      (store m h (keccakSqueezeblocks r (k + 1) l).1).map fun m' => ((keccakSqueezeblocks r (k + 1) l).2.map some, m') := by
  have e3 : r >>> 3 = (r / 8 - 1) + 1 := by rw [Nat.shiftRight_eq_div_pow]; omega
  have hb : ∀ l : List Lane, (((keccakPermute l).take (r >>> 3)).map Xmss.store64).flatten.length = r := by
    intro l
    rw [lanes_flatten_length, List.length_take, keccakPermute_length, e3]
    omega
  have one : ∀ (h : Ptr) (l : List Lane) (m : Mem), storeLanes h ((keccakPermute l).map some) (r >>> 3) 0 m =
      store m h ((((keccakPermute l).take (r >>> 3)).map Xmss.store64).flatten) := by
    intro h l m
    rw [e3, storeLanes_of _ 0 m (by rw [keccakPermute_length]; omega)]
    rfl
  intro k
  induction k with
  | zero =>
    intro h l m hl
    rw [squeezeBlocks, permute_map hl, keccakSqueezeblocks, keccakSqueezeblocks]
    simp only [Option.bind_eq_bind, Option.bind_some, one, squeezeBlocks, List.append_nil]
    cases store m h ((((keccakPermute l).take (r >>> 3)).map Xmss.store64).flatten) <;> rfl
  | succ k ih =>
    intro h l m hl
    rw [squeezeBlocks, permute_map hl, keccakSqueezeblocks]
    simp only [Option.bind_eq_bind, Option.bind_some, one]
    rw [← store_append, hb]
    cases store m h ((((keccakPermute l).take (r >>> 3)).map Xmss.store64).flatten) with
    | none => rfl
    | some m' => rw [Option.bind_some, Option.bind_some, ih _ _ _ (keccakPermute_length _)]

/-! ### Absorbing -/

theorem part_over {L off : Nat} {y z : Bytes} (h : off + z.length ≤ y.length) (_ : y.length ≤ L) :
    (part L y).write off z = some (part L (y.take off ++ z ++ y.drop (off + z.length))) := by
  have hl : (y.take off ++ z ++ y.drop (off + z.length)).length = y.length := by
    simp only [List.length_append, List.length_take, List.length_drop]; omega
  unfold Block.write part
  rw [if_pos (by simp only [List.length_append, List.length_map, List.length_replicate]; omega), hl,
    List.take_append_of_le_length (by rw [List.length_map]; omega), List.drop_append_of_le_length (by rw [List.length_map]; omega)]
  simp only [List.map_append, List.map_take, List.map_drop, List.append_assoc]

theorem part_read {L off len : Nat} {y : Bytes} (h : off + len ≤ y.length) :
    (part L y).read off len = some ((y.drop off).take len) := by
  unfold Block.read part
  rw [if_pos (by simp only [List.length_append, List.length_map, List.length_replicate]; omega),
    List.drop_append_of_le_length (by rw [List.length_map]; omega),
    List.take_append_of_le_length (by rw [List.length_drop, List.length_map]; omega), cells_eq_some]
  simp only [List.map_take, List.map_drop]

theorem absorbLoop_of {m : Mem} {r : Nat} (hr : r % 8 = 0) (hr0 : 0 < r) (hr2 : r ≤ 200) (pad : UInt8) : ∀ (fuel : Nat) (l : List Lane) (q : Ptr) (x : Bytes),
    l.length = 25 → x.length ≤ fuel → load m q x.length = some x → ∃ (l' : List Lane) (q' : Ptr) (y : Bytes),
      absorbLoop m r (fuel + 1) (l.map some) q x.length = some (l'.map some, q', y.length) ∧ l'.length = 25 ∧ y.length < r ∧
      load m q' y.length = some y ∧ keccakAbsorbLoop r pad fuel l x = Xmss.xorBlock (r / 8) l' (lastBlock r y pad) := by
  intro fuel
  induction fuel with
  | zero =>
    intro l q x hl hx h
    have : x.length = 0 := by omega
    refine ⟨l, q, x, ?_, hl, by omega, h, rfl⟩
    rw [absorbLoop, if_neg (by omega)]
  | succ fuel ih =>
    intro l q x hl hx h
    by_cases c : r ≤ x.length
    · have h1 : load m (q + 8 * 0) (8 * (r / 8)) = some (x.take r) := by
        have := load_sub' h 0 r (by omega)
        rw [List.drop_zero] at this
        rw [show 8 * (r / 8) = r by omega]
        exact this
      have h2 : load m (q + r) (x.drop r).length = some (x.drop r) := by
        have := load_sub' h r (x.drop r).length (by rw [List.length_drop]; omega)
        rwa [List.take_of_length_le (Nat.le_refl _)] at this
      have ht : ∀ (k : Nat) (s : List Lane) (z : Bytes), 8 * k ≤ r → Xmss.xorBlock k s (z.take (8 * k)) = Xmss.xorBlock k s z := by
        intro k
        induction k with
        | zero => intro s z _; rfl
        | succ k ih =>
          intro s z hk
          cases s with
          | nil => rfl
          | cons a s =>
            rw [Xmss.xorBlock, Xmss.xorBlock, List.drop_take, show 8 * (k + 1) - 8 = 8 * k by omega, ih _ _ (by omega)]
            rw [Xmss.load64, Xmss.load64, List.take_take, Nat.min_eq_left (by omega)]
      obtain ⟨l', q', y, e1, e2, e3, e4, e5⟩ := ih (keccakPermute (Xmss.xorBlock (r / 8) l x)) (q + r) (x.drop r) (keccakPermute_length _)
        (by rw [List.length_drop]; omega) h2
      refine ⟨l', q', y, ?_, e2, e3, e4, ?_⟩
      · rw [absorbLoop, if_pos c]
        simp only [Option.bind_eq_bind]
        rw [xorBlock_of _ 0 l _ (by omega) h1, Option.bind_some, List.take_zero, List.nil_append, List.drop_zero]
        have := ht (r / 8) l x (by omega)
        rw [show 8 * (r / 8) = r by omega] at this
        rw [this, permute_map (by rw [xorBlock_length, hl]), Option.bind_some, ← List.length_drop]
        exact e1
      · rw [keccakAbsorbLoop, if_pos c]
        exact e5
    · refine ⟨l, q, x, ?_, hl, by omega, h, ?_⟩
      · rw [absorbLoop, if_neg c]
      · rw [keccakAbsorbLoop, if_neg c]

theorem set_eq {y : Bytes} {i : Nat} {b : UInt8} (h : i < y.length) : y.take i ++ [b] ++ y.drop (i + 1) = y.set i b := by
  rw [List.set_eq_take_append_cons_drop, if_pos h, List.append_assoc, List.singleton_append]

theorem keccakAbsorb_of {m : Mem} {r : Nat} (hr : r % 8 = 0) (hr0 : 0 < r) (hr2 : r ≤ 200) (pad : UInt8) {l : List Lane} {q : Ptr} {x : Bytes}
    (hl : l.length = 25) (h : load m q x.length = some x) :
    keccakAbsorb m (l.map some) r q x.length pad = some ((Xmss.keccakAbsorb r l x pad).map some, m) := by
  have hm := load_blk h
  have h' : load (m ++ [part 200 []]) q x.length = some x := by rw [load_left hm, h]
  obtain ⟨l', q', y, e1, e2, e3, e4, e5⟩ := absorbLoop_of (m := m ++ [part 200 []]) hr hr0 hr2 pad x.length l q x hl (Nat.le_refl _) h'
  have e5' : Xmss.keccakAbsorb r l x pad = _ := e5
  have hq' : q'.blk = q.blk := by
    have key : ∀ (fuel : Nat) (s : LaneArr) (q : Ptr) (n : Nat) (a : LaneArr × Ptr × Nat),
        absorbLoop (m ++ [part 200 []]) r fuel s q n = some a → a.2.1.blk = q.blk := by
      intro fuel
      induction fuel with
      | zero => intro s q n a h; cases h
      | succ fuel ih =>
        intro s q n a h
        rw [absorbLoop] at h
        split at h
        · simp only [Option.bind_eq_bind] at h
          obtain ⟨s1, _, h⟩ := Option.bind_eq_some_iff.mp h
          obtain ⟨s2, _, h⟩ := Option.bind_eq_some_iff.mp h
          exact ih s2 (q + r) (n - r) a h
        · obtain rfl := Option.some.inj h
          rfl
    exact key _ _ _ _ _ e1
  have hne : q'.blk ≠ m.length := by omega
  have st : ∀ {b b' : Block} {o : Nat} {z : Bytes}, b.write o z = some b' → store (m ++ [b]) ⟨m.length, o⟩ z = some (m ++ [b']) := by
    intro b b' o z hw
    rw [store_right0, store_cons_zero, hw]; rfl
  have z0 : (part 200 []).write 0 (List.replicate r (0 : UInt8)) = some (part 200 (List.replicate r 0)) :=
    write_part rfl (by simpa using hr2)
  rw [keccakAbsorb, alloc_pos (by omega), ← part_nil]
  simp only [Option.bind_eq_bind]
  rw [Option.bind_some]
  dsimp only
  rw [e1, Option.bind_some]
  dsimp only
  obtain ⟨r', rfl⟩ : ∃ r', r = r' + 1 := ⟨r - 1, by omega⟩
  rw [zeroLoop_of, mk_add, Nat.add_zero, st z0, Option.bind_some]
  have hc : copyLoop ⟨m.length, 0⟩ q' y.length 0 (m ++ [part 200 (List.replicate (r' + 1) 0)]) =
      some (m ++ [part 200 (y ++ List.replicate (r' + 1 - y.length) 0)]) := by
    by_cases hy : y = []
    · subst hy
      rfl
    · rw [copyLoop_of hne y 0 _ hy (by
          rw [add_zero']
          have := e4
          rw [load_left (by omega)] at this ⊢
          exact this), mk_add, st (part_over (by rw [List.length_replicate]; omega) (by rw [List.length_replicate]; exact hr2))]
      rw [List.take_zero, List.nil_append, Nat.zero_add, List.drop_replicate]
  rw [hc, Option.bind_some]
  have hl0 : (y ++ List.replicate (r' + 1 - y.length) (0 : UInt8)).length = r' + 1 := by
    rw [List.length_append, List.length_replicate]; omega
  rw [mk_add, Nat.zero_add, st (part_over (z := [pad]) (by rw [hl0, List.length_singleton]; omega) (by omega)), Option.bind_some,
    List.length_singleton, set_eq (by omega)]
  rw [mk_add, load_right0, load_cons_zero, part_read (by rw [List.length_set, hl0]; omega), Option.bind_some]
  rw [st (part_over (by rw [List.length_set, hl0, List.length_singleton]; omega) (by rw [List.length_set]; omega)), Option.bind_some,
    List.length_singleton, set_eq (by rw [List.length_set, hl0]; omega)]
  have ht : ∀ (t : Bytes), (((t.drop (0 + (r' + 1 - 1))).take 1).headD 0) = t.getD (r' + 1 - 1) 0 := by
    intro t
    rw [Nat.zero_add, List.getD_eq_getElem?_getD, ← List.head?_drop]
    cases t.drop (r' + 1 - 1) <;> rfl
  rw [ht, Nat.zero_add]
  have hlb : (lastBlock (r' + 1) y pad).length = r' + 1 := by
    unfold lastBlock
    rw [List.length_set, List.length_set, hl0]
  rw [xorBlock_of (r' + 1 |> (· / 8)) 0 l' (lastBlock (r' + 1) y pad) (by show 0 + (r' + 1) / 8 ≤ _; omega) (by
    show load _ ⟨m.length, 0 + 8 * 0⟩ (8 * ((r' + 1) / 8)) = _
    rw [load_right0, load_cons_zero, show 8 * ((r' + 1) / 8) = r' + 1 by omega, Nat.mul_zero, Nat.add_zero]
    show (part 200 (lastBlock (r' + 1) y pad)).read 0 (r' + 1) = _
    rw [part_read (by rw [hlb]; omega), List.drop_zero, List.take_of_length_le (by omega)])]
  rw [Option.bind_some, List.take_zero, List.nil_append, List.drop_zero, release_append rfl, e5']

/-! ### SHAKE -/

theorem keccakAbsorb_length {r : Nat} {l : List Lane} (hl : l.length = 25) (x : Bytes) (pad : UInt8) :
    (Xmss.keccakAbsorb r l x pad).length = 25 := by
  have key : ∀ (fuel : Nat) (s : List Lane) (z : Bytes), s.length = 25 → (keccakAbsorbLoop r pad fuel s z).length = 25 := by
    intro fuel
    induction fuel with
    | zero => intro s z hs; rw [keccakAbsorbLoop, xorBlock_length, hs]
    | succ fuel ih =>
      intro s z hs
      rw [keccakAbsorbLoop]
      split
      · exact ih _ _ (keccakPermute_length _)
      · rw [xorBlock_length, hs]
  exact key _ _ _ hl

theorem shake_of {r : Nat} (hr : r % 8 = 0) (hr0 : 0 < r) (hr2 : r ≤ 200) {m : Mem} {out inp : Ptr} {outlen inlen : Nat} {x : Bytes}
    (h : load m inp inlen = some x) (ho : out.blk < m.length) (hpos : 0 < outlen) :
    shake r m out outlen inp inlen = store m out (shakeRate r outlen x) := by
  have hx := load_length h
  subst hx
  have h' : load (m ++ [part r []]) inp x.length = some x := by rw [load_left (load_blk h), h]
  rw [shake, alloc_pos hr0, ← part_nil]
  simp only [Option.bind_eq_bind]
  rw [Option.bind_some]
  dsimp only
  rw [clearLanes_25, Option.bind_some, keccakAbsorb_of hr hr0 hr2 0x1F (by simp) h', Option.bind_some]
  dsimp only
  generalize hs : Xmss.keccakAbsorb r (List.replicate 25 (0 : Lane)) x 0x1F = s
  have hsl : s.length = 25 := by rw [← hs]; exact keccakAbsorb_length (by simp) x _
  have he : shakeRate r outlen x = if outlen % r = 0 then (keccakSqueezeblocks r (outlen / r) s).1 else
      (keccakSqueezeblocks r (outlen / r) s).1 ++
        (keccakSqueezeblocks r 1 (keccakSqueezeblocks r (outlen / r) s).2).1.take (outlen % r) := by
    rw [← hs]; rfl
  have hq1 := keccakSqueezeblocks_length hr hr2 (outlen / r) s
  have hq2 := keccakSqueezeblocks_state r (outlen / r) s hsl
  rw [he]
  generalize hq : keccakSqueezeblocks r (outlen / r) s = q at *
  have hmod := Nat.mod_lt outlen hr0
  -- the last, incomplete block
  have last : ∀ m1 : Mem, m1.length = m.length → outlen % r ≠ 0 →
      ((squeezeBlocks r 1 ⟨m.length, 0⟩ (q.2.map some) (m1 ++ [part r []])).bind fun c =>
        copyLoop (out + outlen / r * r) ⟨m.length, 0⟩ (outlen % r) 0 c.2) =
      (store m1 (out + outlen / r * r) ((keccakSqueezeblocks r 1 q.2).1.take (outlen % r))).map
        (· ++ [part r (keccakSqueezeblocks r 1 q.2).1]) := by
    intro m1 h1 hne
    have hd := keccakSqueezeblocks_length hr hr2 1 q.2
    rw [Nat.one_mul] at hd
    rw [squeezeBlocks_of hr hr0 hr2 0 _ _ _ hq2, Nat.zero_add, ← h1, store_right0, store_cons_zero,
      write_part (x := []) (off := 0) rfl (by rw [hd, List.length_nil]; omega), List.nil_append]
    simp only [Option.map_some, Option.bind_some]
    have hl : ((keccakSqueezeblocks r 1 q.2).1.take (outlen % r)).length = outlen % r := by rw [List.length_take]; omega
    have := copyLoop_of (dst := out + outlen / r * r) (src := ⟨m1.length, 0⟩) (by simp; omega)
      ((keccakSqueezeblocks r 1 q.2).1.take (outlen % r)) 0 (m1 ++ [part r (keccakSqueezeblocks r 1 q.2).1])
      (by intro e; rw [e] at hl; simp at hl; omega)
      (by rw [add_zero', load_right0, load_cons_zero, hl, part_read (by omega), List.drop_zero])
    rw [hl] at this
    rw [this, add_zero', store_left (by rw [add_blk]; omega)]
  by_cases hk : outlen / r = 0
  · have hne : outlen % r ≠ 0 := by
      have := Nat.div_add_mod outlen r
      rw [hk, Nat.mul_zero] at this
      omega
    rw [hk] at hq hq1 last ⊢
    rw [Nat.zero_mul] at hq1 last ⊢
    have hq0 : q.1 = [] := List.eq_nil_of_length_eq_zero hq1
    have hqs : q.2 = s := by rw [← hq]; rfl
    rw [squeezeBlocks, Option.bind_some]
    dsimp only
    rw [if_pos hne, if_neg hne, ← hqs, last m rfl hne, hq0, List.nil_append, add_zero']
    cases hst : store m out ((keccakSqueezeblocks r 1 q.2).1.take (outlen % r)) with
    | none => rfl
    | some m2 =>
      rw [Option.map_some, Option.bind_some, release_append (store_length hst)]
  · obtain ⟨k, hk'⟩ : ∃ k, outlen / r = k + 1 := Nat.exists_eq_succ_of_ne_zero hk
    have hsq := squeezeBlocks_of hr hr0 hr2 k out s (m ++ [part r []]) hsl
    rw [← hk', hq, store_left ho] at hsq
    rw [hsq]
    cases hst : store m out q.1 with
    | none =>
      by_cases hne : outlen % r = 0
      · rw [if_pos hne, hst]; rfl
      · rw [if_neg hne, store_append_none hst]; rfl
    | some m1 =>
      have hm1 := store_length hst
      simp only [Option.map_some, Option.bind_some]
      by_cases hne : outlen % r = 0
      · rw [if_neg (by omega), if_pos hne, Option.bind_some, hst, release_append hm1]
      · rw [if_pos hne, if_neg hne, last m1 hm1 hne, ← hq1, store_append' hst]
        cases hst2 : store m out (q.1 ++ (keccakSqueezeblocks r 1 q.2).1.take (outlen % r)) with
        | none => rfl
        | some m2 => rw [Option.map_some, Option.bind_some, release_append (store_length hst2)]

theorem shake128_of {m : Mem} {out inp : Ptr} {outlen inlen : Nat} {x : Bytes} (h : load m inp inlen = some x) (ho : out.blk < m.length)
    (hpos : 0 < outlen) : shake128 m out outlen inp inlen = store m out (Xmss.shake128 outlen x) :=
  shake_of (by decide) (by decide) (by decide) h ho hpos

theorem shake256_of {m : Mem} {out inp : Ptr} {outlen inlen : Nat} {x : Bytes} (h : load m inp inlen = some x) (ho : out.blk < m.length)
    (hpos : 0 < outlen) : shake256 m out outlen inp inlen = store m out (Xmss.shake256 outlen x) :=
  shake_of (by decide) (by decide) (by decide) h ho hpos

end Xmss.Low
