import Verif.Proof.LowFastRound
import Verif.Proof.FastState
/-
The pointer-level model of the fast implementation: reading the BDS states from the secret key and writing them back.
-/
namespace Xmss.Low

variable {P : Prims} {H : Bytes → Bytes} {p : Params}

theorem holds_append {m : Mem} {q : Ptr} {x y : Bytes} : Holds m q (x ++ y) ↔ Holds m q x ∧ Holds m (q + x.length) y :=
  ⟨fun h => ⟨h.left, h.right⟩, fun h => h.1.append h.2⟩

theorem holds_nil {m : Mem} {q : Ptr} {len : Nat} (h : Valid m q len) : Holds m q [] := by
  obtain ⟨o, h1, h2⟩ := h
  exact ⟨⟨o, h1, by simp; omega⟩, by simp⟩

/-- Several pieces of the same size. -/
theorem holds_flatten {m : Mem} {n : Nat} : ∀ (l : List Bytes) (q : Ptr), (∀ x ∈ l, x.length = n) → Valid m q (l.length * n) →
    (Holds m q l.flatten ↔ ∀ j x, l[j]? = some x → load m (q + j * n) n = some x) := by
  intro l
  induction l with
  | nil =>
    intro q _ hv
    exact ⟨fun _ j x h => by simp at h, fun _ => holds_nil hv⟩
  | cons y l ih =>
    intro q hl hv
    have hy := hl y (by simp)
    rw [List.flatten_cons, holds_append, hy, ih (q + n) (fun x hx => hl x (by simp [hx]))
      (hv.sub n _ (by rw [List.length_cons]; have : (l.length + 1) * n = l.length * n + n := by ring
                      omega))]
    constructor
    · rintro ⟨h1, h2⟩ j x hj
      cases j with
      | zero =>
        simp only [List.getElem?_cons_zero, Option.some.injEq] at hj
        subst hj
        have := h1.load hy
        rw [Nat.zero_mul]
        exact this
      | succ j =>
        have := h2 j x (by simpa using hj)
        rw [add_add] at this
        rwa [show (j + 1) * n = n + j * n by ring]
    · intro h
      refine ⟨?_, ?_⟩
      · have := h 0 y rfl
        rw [Nat.zero_mul] at this
        exact Holds.of_load this
      · intro j x hj
        have := h (j + 1) x (by simpa using hj)
        rw [add_add]
        rwa [show (j + 1) * n = n + j * n by ring] at this

/-! ### Instances -/

/-- The scalars of an instance as they lie in the secret key. -/
def hdr (t : TreehashInst) : Bytes :=
  Xmss.ullToBytes 1 t.h ++ Xmss.ullToBytes 4 t.nextIdx ++ Xmss.ullToBytes 1 t.stackusage ++ Xmss.ullToBytes 1 t.completed

theorem hdr_length (t : TreehashInst) : (hdr t).length = 7 := by simp [hdr, ullToBytes_length]

theorem instBytes_hdr (t : TreehashInst) : instBytes t = hdr t ++ t.node := rfl

theorem instBytes_len {t : TreehashInst} (h : t.node.length = p.n) : (instBytes t).length = 7 + p.n := by
  rw [instBytes_hdr, List.length_append, hdr_length, h]

/-- The structure of the `i`-th of the instances at `q`. -/
def linstAt (p : Params) (q : Ptr) (i : Nat) (t : TreehashInst) : LInst :=
  { h := t.h, nextIdx := t.nextIdx, stackusage := t.stackusage, completed := t.completed, node := q + (i * (7 + p.n) + 7) }

theorem w8_lt {x : Nat} (h : x < 256) : w8 x = x := Nat.mod_eq_of_lt h

theorem readInstsL_of {m : Mem} : ∀ (l : List TreehashInst) (q : Ptr), (∀ t ∈ l, InstShape p t) → Holds m q (l.map instBytes).flatten →
    readInstsL p m l.length q = some (l.mapIdx (linstAt p q), q + l.length * (7 + p.n)) := by
  intro l
  induction l with
  | nil => intro q _ _; simp only [List.length_nil, readInstsL, Nat.zero_mul, List.mapIdx_nil]; rfl
  | cons t l ih =>
    intro q hl hh
    have ht := hl t (by simp)
    rw [List.map_cons, List.flatten_cons, holds_append, instBytes_length ht, instBytes_hdr, hdr] at hh
    obtain ⟨h1, h2⟩ := hh
    simp only [holds_append, List.length_append, ullToBytes_length] at h1
    obtain ⟨⟨⟨⟨a, b⟩, c⟩, d⟩, e⟩ := h1
    have a' := a.load (ullToBytes_length _ _)
    have b' := b.load (ullToBytes_length _ _)
    have c' := c.load (ullToBytes_length _ _)
    have d' := d.load (ullToBytes_length _ _)
    have := ih (q + (7 + p.n)) (fun x hx => hl x (by simp [hx])) h2
    rw [List.length_cons, readInstsL]
    dsimp only
    simp only [add_add]
    rw [bytesToUll_of (by omega) a', bytesToUll_ullToBytes (by omega) (by have := ht.1; omega),
      bytesToUll_of (by omega) b', bytesToUll_ullToBytes (by omega) (by have := ht.2.1; omega),
      bytesToUll_of (by omega) c', bytesToUll_ullToBytes (by omega) (by have := ht.2.2.1; omega),
      bytesToUll_of (by omega) d', bytesToUll_ullToBytes (by omega) (by have := ht.2.2.2.1; omega)]
    simp only [Option.bind_eq_bind, Option.bind_some]
    rw [show 1 + 4 + 1 + 1 + p.n = 7 + p.n by omega, this, Option.bind_some, w8_lt ht.1, w8_lt ht.2.2.1, w8_lt ht.2.2.2.1]
    simp only [List.mapIdx_cons, Option.some.injEq, Prod.mk.injEq, List.cons.injEq]
    refine ⟨⟨?_, ?_⟩, ?_⟩
    · simp only [linstAt, LInst.mk.injEq, true_and]
      congr 1; omega
    · apply List.mapIdx_eq_mapIdx_iff.mpr
      intro i hi
      simp only [linstAt, LInst.mk.injEq, true_and]
      rw [add_add]
      congr 1; ring
    · rw [add_add]; congr 1; ring

/-- The structure belongs to the instance. -/
def SameInst (a : LInst) (t : TreehashInst) : Prop :=
  a.h = t.h ∧ a.nextIdx = t.nextIdx ∧ a.stackusage = t.stackusage ∧ a.completed = t.completed

theorem writeInstsL_of : ∀ (l : List TreehashInst) (L : List LInst) (q : Ptr) (m : Mem), List.Forall₂ SameInst L l →
    (∀ t ∈ l, t.h < 256 ∧ t.nextIdx < 2 ^ 64 ∧ t.stackusage < 256 ∧ t.completed < 256 ∧ t.node.length = p.n) →
    Valid m q (l.length * (7 + p.n)) → (∀ j t, l[j]? = some t → load m (q + (j * (7 + p.n) + 7)) p.n = some t.node) →
    ∃ m', writeInstsL p L q m = some (m', q + l.length * (7 + p.n)) ∧ OnlyIn m m' [(q, l.length * (7 + p.n))] ∧
      Holds m' q (l.map instBytes).flatten := by
  intro l
  induction l with
  | nil =>
    intro L q m hf _ hv _
    cases hf
    exact ⟨m, by rw [writeInstsL]; simp only [List.length_nil, Nat.zero_mul]; rfl, onlyIn_refl _ _, holds_nil hv⟩
  | cons t l ih =>
    intro L q m hf hl hv hn
    cases hf with
    | @cons a _ L' _ hs hf' =>
    have ht := hl t (by simp)
    have hmul : (l.length + 1) * (7 + p.n) = l.length * (7 + p.n) + (7 + p.n) := by ring
    rw [List.length_cons, hmul] at hv
    obtain ⟨m1, e1⟩ := hv.store (x := hdr t) (by rw [hdr_length]; omega)
    have e0 := e1
    rw [hdr, ← store_append, ← store_append, ← store_append] at e1
    simp only [List.length_append, ullToBytes_length] at e1
    obtain ⟨x3, f3, g4⟩ := Option.bind_eq_some_iff.mp e1
    obtain ⟨x2, f2, g3⟩ := Option.bind_eq_some_iff.mp f3
    obtain ⟨x1, g1, g2⟩ := Option.bind_eq_some_iff.mp f2
    have ho1 : OnlyIn m m1 [(q, (l.length + 1) * (7 + p.n))] := store_in e0 (List.mem_singleton_self _) rfl (Nat.le_refl _) (by rw [hdr_length, hmul]; omega)
    obtain ⟨m', k1, k2, k3⟩ := ih L' (q + (7 + p.n)) m1 hf' (fun x hx => hl x (by simp [hx]))
      ((keepValid ho1 hv).sub _ _ (by omega)) (by
        intro j t' hj
        have := hn (j + 1) t' (by simpa using hj)
        rw [load_store_disj e0 (by right; right; rw [hdr_length]; show q.off + 7 ≤ q.off + (7 + p.n) + (j * (7 + p.n) + 7); omega)]
        rw [add_add, ← this]
        congr 2; ring)
    refine ⟨m', ?_, ?_, ?_⟩
    · rw [writeInstsL]
      simp only [Option.bind_eq_bind]
      rw [ullToBytes_of (Or.inl (by omega)) (by omega) (by rw [hs.1]; omega), hs.1, g1, Option.bind_some,
        ullToBytes_of (Or.inl (by omega)) (by omega) (by rw [hs.2.1]; omega), hs.2.1, g2, Option.bind_some,
        ullToBytes_of (Or.inl (by omega)) (by omega) (by rw [hs.2.2.1]; omega), hs.2.2.1]
      simp only [add_add]
      rw [g3, Option.bind_some,
        ullToBytes_of (Or.inl (by omega)) (by omega) (by rw [hs.2.2.2]; omega), hs.2.2.2, g4, Option.bind_some,
        show 1 + 4 + 1 + 1 + p.n = 7 + p.n by omega, k1, List.length_cons, hmul, add_add]
      congr 3; omega
    · rw [List.length_cons]
      refine ho1.trans k2 (fun _ _ h => h) ?_
      intro b i hw
      rw [within_one] at hw ⊢
      refine ⟨hw.1, ?_, ?_⟩
      · have : q.off + (7 + p.n) ≤ i := hw.2.1
        omega
      · have : i < q.off + (7 + p.n) + l.length * (7 + p.n) := hw.2.2
        rw [hmul]; omega
    · rw [List.map_cons, List.flatten_cons, holds_append, instBytes_len ht.2.2.2.2, instBytes_hdr]
      refine ⟨?_, k3⟩
      rw [holds_append, hdr_length]
      refine ⟨?_, ?_⟩
      · refine (store_holds e0).keep k2 ?_
        intro r hr
        simp only [List.mem_singleton] at hr
        subst hr
        right; left; rw [hdr_length]; show q.off + 7 ≤ q.off + (7 + p.n); omega
      · have := hn 0 t rfl
        rw [Nat.zero_mul, Nat.zero_add] at this
        have h2 : load m1 (q + 7) p.n = some t.node := by
          rw [load_store_disj e0 (by right; right; rw [hdr_length]; exact Nat.le_refl _)]; exact this
        refine (Holds.of_load h2).keep k2 ?_
        intro r hr
        simp only [List.mem_singleton] at hr
        subst hr
        right; left; rw [ht.2.2.2.2]; show q.off + 7 + p.n ≤ q.off + (7 + p.n); omega

/-! ### One state -/

theorem levels_holds {m : Mem} {l : List Nat} {q : Ptr} (hv : Valid m q l.length) :
    Holds m q (l.map UInt8.ofNat) ↔ ∀ (j : Nat) (x : Bytes), (l[j]?).map (fun v => [UInt8.ofNat v]) = some x → load m (q + j) 1 = some x := by
  have e : l.map UInt8.ofNat = (l.map fun v => [UInt8.ofNat v]).flatten := by
    clear hv
    induction l with
    | nil => rfl
    | cons a l ih => rw [List.map_cons, List.map_cons, List.flatten_cons, ih]; rfl
  rw [e, holds_flatten (n := 1) _ _ (by simp) (by simpa using hv)]
  simp only [List.getElem?_map, Nat.mul_one]

/-- The bytes of a state in memory, by components. -/
theorem state_holds {m : Mem} {b : Ptr} {w : BdsState} (ft : Fit p w) (hv : Valid m b (stSize p)) :
    Holds m b (stateBytes w) ↔ (∀ f x, getF w f = some x → load m (b + offF p f) (lenF p f) = some x) ∧
      Holds m (b + (p.tree_height + 1) * p.n) (Xmss.ullToBytes 4 w.stackoffset) ∧
      (∀ j t, w.treehash[j]? = some t → Holds m (b + (offF p (.node j) - 7)) (hdr t)) ∧
      Holds m (b + (stSize p - 4)) (Xmss.ullToBytes 4 w.nextLeaf) := by
  have l1 := flatten_length_of ft.stack_mem
  have l2 := flatten_length_of ft.auth_mem
  have l3 := flatten_length_of ft.keep_mem
  have l5 : ((w.treehash.map instBytes).flatten).length = w.treehash.length * (7 + p.n) := by
    rw [flatten_length_of (n := 7 + p.n), List.length_map]
    intro x hx
    obtain ⟨t, ht, rfl⟩ := List.mem_map.mp hx
    exact instBytes_len (ft.insts_mem t ht).2.2.2
  rw [ft.stack_len] at l1
  rw [ft.auth_len] at l2
  rw [ft.keep_len] at l3
  rw [ft.insts_len] at l5
  have l6 := ft.levels_len
  rw [stateBytes, ft.retain_nil]
  simp only [holds_append, List.length_append, ullToBytes_length, List.length_map, l1, l2, l3, l5, l6, List.flatten_nil,
    List.length_nil]
  have hs : stSize p = (p.tree_height + 1) * p.n + 4 + (p.tree_height + 1) + p.tree_height * p.n + (p.tree_height / 2) * p.n +
    p.tree_height * (7 + p.n) + 4 := rfl
  have hn : Holds m (b + ((p.tree_height + 1) * p.n + 4 + (p.tree_height + 1) + p.tree_height * p.n + (p.tree_height / 2) * p.n +
    p.tree_height * (7 + p.n))) [] := holds_nil (hv.sub _ 0 (by rw [hs]; omega))
  rw [holds_flatten _ _ ft.stack_mem (by rw [ft.stack_len]; have := hv.sub 0 ((p.tree_height + 1) * p.n) (by rw [hs]; omega); exact this),
    levels_holds (by rw [l6]; exact hv.sub _ _ (by rw [hs]; omega)),
    holds_flatten _ _ ft.auth_mem (by rw [ft.auth_len]; exact hv.sub _ _ (by rw [hs]; omega)),
    holds_flatten _ _ ft.keep_mem (by rw [ft.keep_len]; exact hv.sub _ _ (by rw [hs]; omega)),
    holds_flatten (n := 7 + p.n) (w.treehash.map instBytes) _ (by
      intro x hx
      obtain ⟨t, ht, rfl⟩ := List.mem_map.mp hx
      exact instBytes_len (ft.insts_mem t ht).2.2.2) (by rw [List.length_map, ft.insts_len]; exact hv.sub _ _ (by rw [hs]; omega))]
  have key : (∀ j x, (w.treehash.map instBytes)[j]? = some x → load m (b + ((p.tree_height + 1) * p.n + 4 + (p.tree_height + 1) +
        p.tree_height * p.n + p.tree_height / 2 * p.n) + j * (7 + p.n)) (7 + p.n) = some x) ↔
      (∀ j x, (w.treehash[j]?).map (·.node) = some x → load m (b + offF p (.node j)) p.n = some x) ∧
      (∀ j t, w.treehash[j]? = some t → Holds m (b + (offF p (.node j) - 7)) (hdr t)) := by
    have hoff : ∀ j, offF p (.node j) - 7 = (p.tree_height + 1) * p.n + 4 + (p.tree_height + 1) +
        p.tree_height * p.n + p.tree_height / 2 * p.n + j * (7 + p.n) := fun j => by simp only [offF]; omega
    have hoff' : ∀ j, offF p (.node j) = (p.tree_height + 1) * p.n + 4 + (p.tree_height + 1) +
        p.tree_height * p.n + p.tree_height / 2 * p.n + j * (7 + p.n) + 7 := fun j => by simp only [offF]
    constructor
    · intro h
      refine ⟨?_, ?_⟩
      · intro j x hx
        obtain ⟨t, ht, rfl⟩ := Option.map_eq_some_iff.mp hx
        have hl := (ft.insts_mem t (List.mem_of_getElem? ht)).2.2.2
        have h1 := Holds.of_load (h j (instBytes t) (by rw [List.getElem?_map, ht]; rfl))
        rw [instBytes_hdr, holds_append, hdr_length, add_add, add_add, ← hoff' j] at h1
        exact h1.2.load hl
      · intro j t ht
        have h1 := Holds.of_load (h j (instBytes t) (by rw [List.getElem?_map, ht]; rfl))
        rw [instBytes_hdr, holds_append, hdr_length, add_add, ← hoff j] at h1
        exact h1.1
    · rintro ⟨h1, h2⟩ j x hx
      rw [List.getElem?_map] at hx
      obtain ⟨t, ht, rfl⟩ := Option.map_eq_some_iff.mp hx
      have hl := (ft.insts_mem t (List.mem_of_getElem? ht)).2.2.2
      refine Holds.load ?_ (instBytes_len hl)
      rw [instBytes_hdr, holds_append, hdr_length, add_add, add_add, ← hoff' j, ← hoff j]
      exact ⟨h2 j t ht, Holds.of_load (h1 j t.node (by rw [ht]; rfl))⟩
  rw [key]
  constructor
  · rintro ⟨⟨⟨⟨⟨⟨⟨h1, h2⟩, h3⟩, h4⟩, h5⟩, h6, h6'⟩, _⟩, h7⟩
    refine ⟨?_, h2, h6', ?_⟩
    · intro f x hf
      cases f with
      | stack j => exact h1 j x hf
      | lev j => have := h3 j x hf; rw [add_add] at this; exact this
      | auth j => have := h4 j x hf; rw [add_add] at this; exact this
      | keep j => have := h5 j x hf; rw [add_add] at this; exact this
      | node j => exact h6 j x hf
    · rw [hs, Nat.add_sub_cancel]; exact h7
  · rintro ⟨h1, h2, h3, h4⟩
    rw [hs, Nat.add_sub_cancel] at h4
    refine ⟨⟨⟨⟨⟨⟨⟨?_, h2⟩, ?_⟩, ?_⟩, ?_⟩, ?_, h3⟩, hn⟩, h4⟩
    · exact fun j x hf => h1 (.stack j) x hf
    · intro j x hf; rw [add_add]; exact h1 (.lev j) x hf
    · intro j x hf; rw [add_add]; exact h1 (.auth j) x hf
    · intro j x hf; rw [add_add]; exact h1 (.keep j) x hf
    · exact fun j x hf => h1 (.node j) x hf

theorem stateBytes_len {w : BdsState} (ft : Fit p w) : (stateBytes w).length = stSize p := by
  have l5 : ((w.treehash.map instBytes).flatten).length = w.treehash.length * (7 + p.n) := by
    rw [flatten_length_of (n := 7 + p.n), List.length_map]
    intro x hx
    obtain ⟨t, ht, rfl⟩ := List.mem_map.mp hx
    exact instBytes_len (ft.insts_mem t ht).2.2.2
  rw [stateBytes, ft.retain_nil]
  simp only [List.length_append, ullToBytes_length, List.length_map, flatten_length_of ft.stack_mem, flatten_length_of ft.auth_mem,
    flatten_length_of ft.keep_mem, l5, List.flatten_nil, List.length_nil, ft.stack_len, ft.levels_len, ft.auth_len, ft.keep_len, ft.insts_len]
  rfl

/-- A state in memory is simulated. -/
theorem sim_of_holds {m : Mem} {b : Ptr} {w : BdsState} (ft : Fit p w) (h : Holds m b (stateBytes w)) :
    Sim p (.upd b) false m (.mem (b + offF p (.lev 0))) w := by
  have hv : Valid m b (stSize p) := by have := h.1; rw [stateBytes_len ft] at this; exact this
  refine ⟨ft, ?_, ?_, trivial, rfl⟩
  · intro f x _ hg
    exact ((state_holds ft hv).mp h).1 f x hg
  · intro r hr
    simp only [Mode.ranges, List.mem_singleton] at hr
    subst hr; exact hv

theorem Fast0.w32_n (F0 : Fast0 P H p) {x : Nat} (h : x ≤ (p.tree_height + 1) * p.n) : w32 x = x := by
  apply w32_lt
  have h1 := F0.good.th_lt
  have h2 := (fits_of_good F0.good).n_lt
  have : (p.tree_height + 1) * p.n ≤ 32 * p.n := Nat.mul_le_mul_right _ (by omega)
  omega

theorem Fast0.retainL (F0 : Fast0 P H p) : retainL p = some 0 := by
  unfold Low.retainL; rw [F0.k0]; decide +kernel

/-- Reading a state. -/
theorem readStateL_of (F0 : Fast0 P H p) {m : Mem} {b : Ptr} {w : BdsState} (sh : Shape p w) (h : Holds m b (stateBytes w)) :
    readStateL p m b = some (lst p b w, b + stSize p) := by
  have hth := F0.good.th_lt
  have ft := Shape.fit sh F0.k0
  have hv : Valid m b (stSize p) := by have := h.1; rw [stateBytes_len ft] at this; exact this
  obtain ⟨_, s2, s3, s4⟩ := (state_holds ft hv).mp h
  have l1 := flatten_length_of ft.stack_mem
  have l2 := flatten_length_of ft.auth_mem
  have l3 := flatten_length_of ft.keep_mem
  rw [ft.stack_len] at l1
  rw [ft.auth_len] at l2
  rw [ft.keep_len] at l3
  have l6 := ft.levels_len
  have hI := h
  rw [stateBytes, ft.retain_nil] at hI
  simp only [holds_append, List.length_append, ullToBytes_length, List.length_map, l1, l2, l3, l6] at hI
  have hI' := hI.1.1.2
  have hin := readInstsL_of (p := p) w.treehash _ sh.insts_mem hI'
  rw [ft.insts_len] at hin
  have e4 : stSize p - 4 = (p.tree_height + 1) * p.n + 4 + (p.tree_height + 1) + p.tree_height * p.n + (p.tree_height / 2) * p.n +
    p.tree_height * (7 + p.n) := rfl
  rw [readStateL]
  dsimp only
  rw [w32_lt (x := p.tree_height + 1) (by omega), F0.w32_n (Nat.le_refl _), F0.w32_n (x := p.tree_height * p.n)
      (Nat.mul_le_mul_right _ (by omega)), Nat.shiftRight_one, F0.w32_n (x := p.tree_height / 2 * p.n) (Nat.mul_le_mul_right _ (by omega)),
    bytesToUll_of (by omega) (s2.load (ullToBytes_length _ _)), bytesToUll_ullToBytes (by omega) (by have := sh.off_lt; omega)]
  simp only [add_add, Option.bind_eq_bind, Option.bind_some]
  rw [F0.instsL, hin, Option.bind_some, F0.retainL, Option.bind_some, Nat.zero_mul]
  simp only [add_add]
  rw [show w32 0 = 0 from rfl, Nat.add_zero]
  rw [e4] at s4
  rw [bytesToUll_of (by omega) (s4.load (ullToBytes_length _ _)), bytesToUll_ullToBytes (by omega) (by have := sh.next_lt; omega), Option.bind_some,
    w32_lt sh.off_lt, w32_lt sh.next_lt]
  simp only [Option.some.injEq, Prod.mk.injEq]
  refine ⟨?_, rfl⟩
  simp only [lst, LState.mk.injEq, true_and]
  refine ⟨?_, rfl, ?_, ?_, ?_, ?_⟩
  · simp only [offF, Nat.zero_mul]; rfl
  · simp only [offF, Nat.zero_mul, Nat.add_zero]
  · simp only [offF, Nat.zero_mul, Nat.add_zero]
  · apply List.mapIdx_eq_mapIdx_iff.mpr
    intro i hi
    simp only [linstAt, linst, LInst.mk.injEq, true_and, add_add, offF]
    congr 1
  · simp only [offF]
    exact ⟨rfl, trivial⟩

theorem lst_same {b : Ptr} {w : BdsState} : List.Forall₂ SameInst (lst p b w).treehash w.treehash := by
  rw [List.forall₂_iff_get]
  refine ⟨by simp [lst], ?_⟩
  intro i h1 h2
  simp [lst, SameInst, linst]

/-- Writing the scalars of a state back. -/
theorem writeStateL_of (F0 : Fast0 P H p) {m : Mem} {b : Ptr} {lv : Levels} {w : BdsState} (S : Sim p (.upd b) false m lv w)
    (h1 : ∀ t ∈ w.treehash, t.nextIdx < 2 ^ 64) (h2 : w.nextLeaf < 2 ^ 64) :
    ∃ m', writeStateL p (lst p b w) b m = some (m', b + stSize p) ∧ OnlyIn m m' [(b, stSize p)] ∧ Holds m' b (stateBytes w) := by
  have hth := F0.good.th_lt
  have ft := S.fit
  have hv : Valid m b (stSize p) := S.room (b, stSize p) (by simp [Mode.ranges])
  have e4 : stSize p = (p.tree_height + 1) * p.n + 4 + (p.tree_height + 1) + p.tree_height * p.n + (p.tree_height / 2) * p.n +
    p.tree_height * (7 + p.n) + 4 := rfl
  obtain ⟨m1, s1⟩ := (hv.sub ((p.tree_height + 1) * p.n) 4 (by rw [e4]; omega)).store (x := Xmss.ullToBytes 4 w.stackoffset)
    (by rw [ullToBytes_length])
  have o1 : OnlyIn m m1 [(b + (p.tree_height + 1) * p.n, 4)] := by
    have := store_onlyIn s1; rwa [ullToBytes_length] at this
  set qi : Ptr := b + ((p.tree_height + 1) * p.n + 4 + (p.tree_height + 1) + p.tree_height * p.n + (p.tree_height / 2) * p.n) with hqi
  obtain ⟨m2, s2, o2, H2⟩ := writeInstsL_of (p := p) w.treehash (lst p b w).treehash qi m1 lst_same
    (fun t ht => by have := ft.insts_mem t ht; exact ⟨this.1, h1 t ht, this.2⟩)
    (by rw [ft.insts_len]; exact (keepValid o1 hv).sub _ _ (by rw [e4]; omega))
    (by
      intro j t hj
      have hg : getF w (.node j) = some t.node := by rw [getF, hj]; rfl
      have := S.get (f := .node j) ⟨by simp, trivial⟩ hg
      have e : qi + (j * (7 + p.n) + 7) = b + offF p (.node j) := by
        rw [hqi, add_add]; congr 1
      rw [e]
      refine keepLoad o1 this ?_
      intro r hr
      simp only [List.mem_singleton] at hr
      subst hr
      right; right
      show b.off + (p.tree_height + 1) * p.n + 4 ≤ b.off + offF p (.node j)
      simp only [offF]; omega)
  rw [ft.insts_len] at s2 o2
  have o12 := keepValid o2 (keepValid o1 hv)
  obtain ⟨m3, s3⟩ := (o12.sub (stSize p - 4) 4 (by rw [e4]; omega)).store (x := Xmss.ullToBytes 4 w.nextLeaf)
    (by rw [ullToBytes_length])
  have o3 : OnlyIn m2 m3 [(b + (stSize p - 4), 4)] := by
    have := store_onlyIn s3; rwa [ullToBytes_length] at this
  refine ⟨m3, ?_, ?_, ?_⟩
  · rw [writeStateL]
    dsimp only
    rw [w32_lt (x := p.tree_height + 1) (by omega), F0.w32_n (Nat.le_refl _), F0.w32_n (x := p.tree_height * p.n)
        (Nat.mul_le_mul_right _ (by omega)), Nat.shiftRight_one, F0.w32_n (x := p.tree_height / 2 * p.n) (Nat.mul_le_mul_right _ (by omega)),
      ullToBytes_of (Or.inl (by omega)) (by omega) (by have := ft.off_lt; show w.stackoffset < _; omega)]
    rw [show (lst p b w).stackoffset = w.stackoffset from rfl, s1]
    simp only [Option.bind_eq_bind, Option.bind_some, add_add]
    rw [← hqi, s2, Option.bind_some, F0.retainL, Option.bind_some, Nat.zero_mul, hqi]
    simp only [add_add]
    rw [show w32 0 = 0 from rfl, Nat.add_zero, Nat.zero_add, show (lst p b w).nextLeaf = w.nextLeaf from rfl,
      ullToBytes_of (k := 4) (Or.inl (by omega)) (by omega) h2]
    have e5 : stSize p - 4 = (p.tree_height + 1) * p.n + 4 + (p.tree_height + 1) + p.tree_height * p.n + (p.tree_height / 2) * p.n +
      p.tree_height * (7 + p.n) := rfl
    rw [e5] at s3
    rw [s3, Option.bind_some, e4]
  · have sub : ∀ (q : Ptr) (o len : Nat) (x y : Mem), q = b + o → o + len ≤ stSize p → OnlyIn x y [(q, len)] → OnlyIn x y [(b, stSize p)] := by
      intro q o len x y hq hle ho
      refine ho.mono ?_
      intro c i hw
      rw [within_one] at hw ⊢
      subst hq
      refine ⟨hw.1, ?_, ?_⟩
      · have : b.off + o ≤ i := hw.2.1
        omega
      · have : i < b.off + o + len := hw.2.2
        omega
    exact ((sub _ _ _ _ _ rfl (by rw [e4]; omega) o1).tr (sub _ _ _ _ _ hqi (by rw [e4]; omega) o2)).tr
      (sub _ _ _ _ _ rfl (by rw [e4]; omega) o3)
  · have hv3 := keepValid o3 o12
    rw [state_holds ft hv3]
    have ir := (holds_flatten (n := 7 + p.n) (w.treehash.map instBytes) _ (by
      intro x hx
      obtain ⟨t, ht, rfl⟩ := List.mem_map.mp hx
      exact instBytes_len (ft.insts_mem t ht).2.2.2) (by
        rw [List.length_map, ft.insts_len]; exact o12.sub _ _ (by rw [e4]; omega))).mp H2
    have d3 : ∀ (q : Ptr) (len : Nat), q.blk = b.blk → q.off + len ≤ b.off + (stSize p - 4) →
        ∀ r ∈ [(b + (stSize p - 4), 4)], Disj q len r.1 r.2 := by
      intro q len h1 h2 r hr
      simp only [List.mem_singleton] at hr
      subst hr
      right; left; exact h2
    refine ⟨?_, ?_, ?_, ?_⟩
    · intro f x hg
      have hle := offF_le (ft.ok hg)
      refine keepLoad o3 ?_ (d3 _ _ rfl (by show b.off + offF p f + _ ≤ _; omega))
      have hm := S.get (f := f) ⟨by simp, trivial⟩ hg
      have hm1 : load m1 (b + offF p f) (lenF p f) = some x := by
        refine keepLoad o1 hm ?_
        intro r hr
        simp only [List.mem_singleton] at hr
        subst hr
        have hok := ft.ok hg
        cases f with
        | stack j =>
          have := mul_end (n := p.n) hok
          right; left; show b.off + j * p.n + p.n ≤ b.off + (p.tree_height + 1) * p.n; omega
        | _ => right; right; show b.off + (p.tree_height + 1) * p.n + 4 ≤ b.off + offF p _; simp only [offF]; omega
      by_cases hn : ∃ j, f = .node j
      · obtain ⟨j, rfl⟩ := hn
        obtain ⟨t, ht, rfl⟩ := Option.map_eq_some_iff.mp hg
        have h1 := Holds.of_load (ir j (instBytes t) (by rw [List.getElem?_map, ht]; rfl))
        rw [instBytes_hdr, holds_append, hdr_length, hqi, add_add, add_add] at h1
        have := h1.2.load (ft.insts_mem t (List.mem_of_getElem? ht)).2.2.2
        exact this
      · refine keepLoad o2 hm1 ?_
        intro r hr
        simp only [List.mem_singleton] at hr
        subst hr
        have hok := ft.ok hg
        right; left
        show b.off + offF p f + lenF p f ≤ b.off + ((p.tree_height + 1) * p.n + 4 + (p.tree_height + 1) + p.tree_height * p.n +
          (p.tree_height / 2) * p.n)
        cases f with
        | stack j => have := mul_end (n := p.n) hok; simp only [offF, lenF]; omega
        | lev j => have : j < p.tree_height + 1 := hok; simp only [offF, lenF]; omega
        | auth j => have := mul_end (n := p.n) hok; simp only [offF, lenF]; omega
        | keep j => have := mul_end (n := p.n) hok; simp only [offF, lenF]; omega
        | node j => exact absurd ⟨j, rfl⟩ hn
    · refine ((store_holds s1).keep o2 ?_).keep o3 (d3 _ _ rfl (by rw [ullToBytes_length]; show b.off + _ + 4 ≤ _; rw [e4]; omega))
      intro r hr
      simp only [List.mem_singleton] at hr
      subst hr
      right; left; rw [ullToBytes_length]; show b.off + _ + 4 ≤ b.off + _; omega
    · intro j t ht
      have hok : okF p (.node j) := ft.ok (x := t.node) (by rw [getF, ht]; rfl)
      have hle := offF_le hok
      have h1 := Holds.of_load (ir j (instBytes t) (by rw [List.getElem?_map, ht]; rfl))
      rw [instBytes_hdr, holds_append, hqi, add_add] at h1
      have e : offF p (.node j) - 7 = (p.tree_height + 1) * p.n + 4 + (p.tree_height + 1) + p.tree_height * p.n +
          (p.tree_height / 2) * p.n + j * (7 + p.n) := by simp only [offF]; omega
      rw [e]
      refine h1.1.keep o3 (d3 _ _ rfl ?_)
      rw [hdr_length]
      show b.off + _ + 7 ≤ _
      simp only [offF, lenF] at hle
      omega
    · exact store_holds s3

/-! ### All states -/

/-- The structures of the states at `q`. -/
def lstates (p : Params) (q : Ptr) (l : List BdsState) : List LState := l.mapIdx fun i s => lst p (q + i * stSize p) s

theorem lstates_cons {q : Ptr} {s : BdsState} {l : List BdsState} : lstates p q (s :: l) = lst p q s :: lstates p (q + stSize p) l := by
  rw [lstates, List.mapIdx_cons, Nat.zero_mul]
  refine congrArg _ ?_
  apply List.mapIdx_eq_mapIdx_iff.mpr
  intro i hi
  rw [add_add]
  congr 2; ring

theorem lstates_get {q : Ptr} {l : List BdsState} {i : Nat} : (lstates p q l)[i]? = (l[i]?).map (lst p (q + i * stSize p)) := by
  simp [lstates]

theorem lstates_set {q : Ptr} {l : List BdsState} {i : Nat} {s : BdsState} :
    lstates p q (l.set i s) = (lstates p q l).set i (lst p (q + i * stSize p) s) := by
  apply List.ext_getElem?
  intro j
  rw [lstates_get, List.getElem?_set, List.getElem?_set, lstates_get]
  by_cases h : i = j
  · subst h
    simp only [if_true]
    by_cases hl : i < l.length
    · rw [if_pos hl, if_pos (by simpa [lstates] using hl)]; rfl
    · rw [if_neg hl, if_neg (by simpa [lstates] using hl)]; rfl
  · simp only [if_neg h]

theorem readStatesL_of (F0 : Fast0 P H p) {m : Mem} : ∀ (l : List BdsState) (q : Ptr), (∀ s ∈ l, Shape p s) →
    Holds m q (l.map stateBytes).flatten → readStatesL p m l.length q = some (lstates p q l, q + l.length * stSize p) := by
  intro l
  induction l with
  | nil => intro q _ _; simp only [List.length_nil, readStatesL, Nat.zero_mul]; rfl
  | cons s l ih =>
    intro q hl hh
    have hs := hl s (by simp)
    rw [List.map_cons, List.flatten_cons, holds_append, stateBytes_len (Shape.fit hs F0.k0)] at hh
    rw [List.length_cons, readStatesL, readStateL_of F0 hs hh.1]
    simp only [Option.bind_eq_bind, Option.bind_some]
    rw [ih (q + stSize p) (fun x hx => hl x (by simp [hx])) hh.2, Option.bind_some, lstates_cons, add_add]
    rw [show (l.length + 1) * stSize p = stSize p + l.length * stSize p by ring]

theorem writeStatesL_of (F0 : Fast0 P H p) : ∀ (l : List BdsState) (q : Ptr) (m : Mem), Valid m q (l.length * stSize p) →
    (∀ s ∈ l, (∀ t ∈ s.treehash, t.nextIdx < 2 ^ 64) ∧ s.nextLeaf < 2 ^ 64) →
    (∀ i s, l[i]? = some s → ∃ lv, Sim p (.upd (q + i * stSize p)) false m lv s) →
    ∃ m', writeStatesL p (lstates p q l) q m = some m' ∧ OnlyIn m m' [(q, l.length * stSize p)] ∧ Holds m' q (l.map stateBytes).flatten := by
  intro l
  induction l with
  | nil => intro q m hv _ _; exact ⟨m, rfl, onlyIn_refl _ _, holds_nil hv⟩
  | cons s l ih =>
    intro q m hv hn hS
    have hmul : (l.length + 1) * stSize p = stSize p + l.length * stSize p := by ring
    obtain ⟨lv0, S0⟩ := hS 0 s rfl
    rw [Nat.zero_mul, show q + 0 = q from rfl] at S0
    obtain ⟨m1, w1, o1, H1⟩ := writeStateL_of F0 S0 (hn s (by simp)).1 (hn s (by simp)).2
    rw [List.length_cons, hmul] at hv ⊢
    obtain ⟨m2, w2, o2, H2⟩ := ih (q + stSize p) m1 ((keepValid o1 hv).sub _ _ (Nat.le_refl _)) (fun x hx => hn x (by simp [hx])) (by
      intro i t hi
      obtain ⟨lv1, S1⟩ := hS (i + 1) t (by simpa using hi)
      rw [show q + (i + 1) * stSize p = q + stSize p + i * stSize p by rw [add_add]; congr 1; ring] at S1
      refine ⟨lv1, S1.keep o1 ?_⟩
      intro r hr
      simp only [List.mem_singleton] at hr
      subst hr
      right; right; show q.off + stSize p ≤ q.off + stSize p + _; omega)
    refine ⟨m2, ?_, ?_, ?_⟩
    · rw [lstates_cons, writeStatesL, w1, Option.bind_eq_bind, Option.bind_some, w2]
    · refine o1.trans o2 ?_ ?_
      · intro b i hw
        rw [within_one] at hw ⊢
        exact ⟨hw.1, hw.2.1, by omega⟩
      · intro b i hw
        rw [within_one] at hw ⊢
        refine ⟨hw.1, ?_, ?_⟩
        · have : q.off + stSize p ≤ i := hw.2.1
          omega
        · have : i < q.off + stSize p + l.length * stSize p := hw.2.2
          omega
    · rw [List.map_cons, List.flatten_cons, holds_append, stateBytes_len S0.fit]
      refine ⟨H1.keep o2 ?_, H2⟩
      intro r hr
      simp only [List.mem_singleton] at hr
      subst hr
      right; left; rw [stateBytes_len S0.fit]; exact Nat.le_refl _

end Xmss.Low
