import Verif.Proof.LowFastRel
import Verif.Proof.BdsBuild
/-
Storing to the components of a BDS state in memory; the structure `bds_state` that belongs to a state.
-/
namespace Xmss.Low

variable {P : Prims} {H : Bytes → Bytes} {p : Params}

/-! ### The structure -/

/-- The structure of instance `i` of the state at `b`. -/
def linst (p : Params) (b : Ptr) (i : Nat) (t : TreehashInst) : LInst :=
  { h := t.h, nextIdx := t.nextIdx, stackusage := t.stackusage, completed := t.completed, node := b + offF p (.node i) }

/-- The structure of the state at `b` with content `w`. -/
def lst (p : Params) (b : Ptr) (w : BdsState) : LState :=
  { stack := b + offF p (.stack 0), stackoffset := w.stackoffset, stacklevels := b + offF p (.lev 0), auth := b + offF p (.auth 0),
    keep := b + offF p (.keep 0), treehash := w.treehash.mapIdx (linst p b), retain := b + (offF p (.node p.tree_height) - 7),
    nextLeaf := w.nextLeaf }

/-- The pointers of a structure that storing nodes uses. -/
structure LPtrs (p : Params) (b : Ptr) (s : LState) : Prop where
  auth : s.auth = b + offF p (.auth 0)
  node : ∀ i, i < p.tree_height → ∃ t, s.treehash[i]? = some t ∧ t.node = b + offF p (.node i)

theorem lst_get {b : Ptr} {w : BdsState} {i : Nat} : (lst p b w).treehash[i]? = (w.treehash[i]?).map (linst p b i) := by
  simp [lst]

theorem lst_ptrs {b : Ptr} {w : BdsState} (hl : w.treehash.length = p.tree_height) : LPtrs p b (lst p b w) := by
  refine ⟨rfl, ?_⟩
  intro i hi
  rw [lst_get, List.getElem?_eq_getElem (by omega)]
  exact ⟨_, rfl, rfl⟩

theorem lst_set {b : Ptr} {w : BdsState} {i : Nat} {t' : TreehashInst} :
    (w.treehash.set i t').mapIdx (linst p b) = (w.treehash.mapIdx (linst p b)).set i (linst p b i t') := by
  apply List.ext_getElem?
  intro j
  by_cases h : i = j
  · subst h
    by_cases hl : i < w.treehash.length
    · rw [List.getElem?_set_self (by simpa using hl), List.getElem?_mapIdx, List.getElem?_set_self hl]; rfl
    · rw [List.getElem?_eq_none (by simp; omega), List.getElem?_eq_none (by simp; omega)]
  · rw [List.getElem?_set_ne h, List.getElem?_mapIdx, List.getElem?_set_ne h, List.getElem?_mapIdx]

theorem lst_set_node {b : Ptr} {w : BdsState} {i : Nat} {t : TreehashInst} (h : w.treehash[i]? = some t) (x : Bytes) :
    (w.treehash.set i { t with node := x }).mapIdx (linst p b) = w.treehash.mapIdx (linst p b) := by
  rw [lst_set]
  apply List.ext_getElem?
  intro j
  by_cases e : i = j
  · subst e
    have hl := (List.getElem?_eq_some_iff.mp h).1
    rw [List.getElem?_set_self (by simpa using hl), List.getElem?_mapIdx, h]; rfl
  · rw [List.getElem?_set_ne e]

/-! ### Content after a store -/

theorem set_get {α : Type} {l : List α} {i j : Nat} {x y : α} (h : (l.set i x)[j]? = some y) : (j = i ∧ y = x) ∨ (j ≠ i ∧ l[j]? = some y) := by
  by_cases e : i = j
  · subst e
    have hl := (List.getElem?_eq_some_iff.mp h).1
    rw [List.getElem?_set_self (by simpa using hl)] at h
    cases h
    exact Or.inl ⟨rfl, rfl⟩
  · rw [List.getElem?_set_ne e] at h
    exact Or.inr ⟨fun e' => e e'.symm, h⟩

theorem getF_auth {w : BdsState} {j : Nat} {x : Bytes} {f : F} {y : Bytes} (h : getF { w with auth := w.auth.set j x } f = some y) :
    (f = .auth j ∧ y = x) ∨ (f ≠ .auth j ∧ getF w f = some y) := by
  cases f with
  | auth i =>
    rcases set_get h with ⟨rfl, rfl⟩ | ⟨h1, h2⟩
    · exact Or.inl ⟨rfl, rfl⟩
    · exact Or.inr ⟨by simpa using h1, h2⟩
  | _ => exact Or.inr ⟨by simp, h⟩

theorem getF_keep {w : BdsState} {j : Nat} {x : Bytes} {f : F} {y : Bytes} (h : getF { w with keep := w.keep.set j x } f = some y) :
    (f = .keep j ∧ y = x) ∨ (f ≠ .keep j ∧ getF w f = some y) := by
  cases f with
  | keep i =>
    rcases set_get h with ⟨rfl, rfl⟩ | ⟨h1, h2⟩
    · exact Or.inl ⟨rfl, rfl⟩
    · exact Or.inr ⟨by simpa using h1, h2⟩
  | _ => exact Or.inr ⟨by simp, h⟩

theorem getF_stack {w : BdsState} {j : Nat} {x : Bytes} {f : F} {y : Bytes} (h : getF { w with stack := w.stack.set j x } f = some y) :
    (f = .stack j ∧ y = x) ∨ (f ≠ .stack j ∧ getF w f = some y) := by
  cases f with
  | stack i =>
    rcases set_get h with ⟨rfl, rfl⟩ | ⟨h1, h2⟩
    · exact Or.inl ⟨rfl, rfl⟩
    · exact Or.inr ⟨by simpa using h1, h2⟩
  | _ => exact Or.inr ⟨by simp, h⟩

theorem getF_lev {w : BdsState} {j v so : Nat} {f : F} {y : Bytes}
    (h : getF { w with stacklevels := w.stacklevels.set j v, stackoffset := so } f = some y) :
    (f = .lev j ∧ y = [UInt8.ofNat v]) ∨ (f ≠ .lev j ∧ getF w f = some y) := by
  cases f with
  | lev i =>
    obtain ⟨l, h1, rfl⟩ := Option.map_eq_some_iff.mp h
    rcases set_get h1 with ⟨rfl, rfl⟩ | ⟨h1, h2⟩
    · exact Or.inl ⟨rfl, rfl⟩
    · exact Or.inr ⟨by simpa using h1, by rw [getF, h2]; rfl⟩
  | _ => exact Or.inr ⟨by simp, h⟩

theorem getF_node {w : BdsState} {j : Nat} {t : TreehashInst} {f : F} {y : Bytes}
    (h : getF { w with treehash := w.treehash.set j t } f = some y) :
    (f = .node j ∧ y = t.node) ∨ (f ≠ .node j ∧ getF w f = some y) := by
  cases f with
  | node i =>
    obtain ⟨l, h1, rfl⟩ := Option.map_eq_some_iff.mp h
    rcases set_get h1 with ⟨rfl, rfl⟩ | ⟨h1, h2⟩
    · exact Or.inl ⟨rfl, rfl⟩
    · exact Or.inr ⟨by simpa using h1, by rw [getF, h2]; rfl⟩
  | _ => exact Or.inr ⟨by simp, h⟩

/-! ### Sizes after a store -/

theorem Fit.auth {w : BdsState} (ft : Fit p w) {j : Nat} {x : Bytes} (hx : x.length = p.n) : Fit p { w with auth := w.auth.set j x } :=
  { ft with auth_len := by simpa using ft.auth_len, auth_mem := forall_mem_set ft.auth_mem hx }

theorem Fit.keep {w : BdsState} (ft : Fit p w) {j : Nat} {x : Bytes} (hx : x.length = p.n) : Fit p { w with keep := w.keep.set j x } :=
  { ft with keep_len := by simpa using ft.keep_len, keep_mem := forall_mem_set ft.keep_mem hx }

theorem Fit.stack {w : BdsState} (ft : Fit p w) {j : Nat} {x : Bytes} (hx : x.length = p.n) : Fit p { w with stack := w.stack.set j x } :=
  { ft with stack_len := by simpa using ft.stack_len, stack_mem := forall_mem_set ft.stack_mem hx }

theorem Fit.lev {w : BdsState} (ft : Fit p w) {j v so : Nat} (hv : v < 256) (hso : so < 2 ^ 32) :
    Fit p { w with stacklevels := w.stacklevels.set j v, stackoffset := so } :=
  { ft with levels_len := by simpa using ft.levels_len, levels_mem := forall_mem_set ft.levels_mem hv, off_lt := hso }

theorem Fit.inst {w : BdsState} (ft : Fit p w) {j : Nat} {t : TreehashInst}
    (ht : t.h < 256 ∧ t.stackusage < 256 ∧ t.completed < 256 ∧ t.node.length = p.n) : Fit p { w with treehash := w.treehash.set j t } :=
  { ft with insts_len := by simpa using ft.insts_len, insts_mem := forall_mem_set ft.insts_mem ht }

theorem Fit.leaves {w : BdsState} (ft : Fit p w) {k : Nat} : Fit p { w with leaves := k } := { ft with }

/-! ### Stores -/

theorem Mode.ptr_auth {md : Mode} {j : Nat} : md.ptr p (.auth j) = md.base + offF p (.auth 0) + j * p.n := by
  cases md <;> (show (_ : Ptr) + offF p (.auth j) = _; rw [add_add]; simp only [offF, Nat.zero_mul, Nat.add_zero]; rfl)

theorem Mode.ptr_keep {md : Mode} {j : Nat} : md.ptr p (.keep j) = md.base + offF p (.keep 0) + j * p.n := by
  cases md <;> (show (_ : Ptr) + offF p (.keep j) = _; rw [add_add]; simp only [offF, Nat.zero_mul, Nat.add_zero]; rfl)

theorem Mode.ptr_node {md : Mode} {j : Nat} : md.ptr p (.node j) = md.base + offF p (.node j) := by
  cases md <;> rfl

/-- Where the stack starts. -/
def Mode.stk : Mode → Ptr
  | .upd b => b
  | .ini _ M => ⟨M, 0⟩

theorem Mode.ptr_stack {md : Mode} {j : Nat} : md.ptr p (.stack j) = md.stk + j * p.n := by
  cases md with
  | upd b => rfl
  | ini b M => show (⟨M, j * p.n⟩ : Ptr) = ⟨M, 0 + j * p.n⟩; rw [Nat.zero_add]

theorem Sim.putAuth {md : Mode} {d : Bool} {m : Mem} {lv : Levels} {w : BdsState} (S : Sim p md d m lv w) {j : Nat} {x : Bytes}
    (hj : j < p.tree_height) (hx : x.length = p.n) : ∃ m', store m (md.ptr p (.auth j)) x = some m' ∧ OnlyIn m m' (md.ranges p) ∧
      Sim p md d m' lv { w with auth := w.auth.set j x } := by
  obtain ⟨m', h1, h2, h3⟩ := S.put (f := .auth j) hj (by cases md <;> trivial) hx
  refine ⟨m', h1, h2, h3 d _ (S.fit.auth hx) ?_ (Or.inl fun j l a b => ⟨a, b⟩)⟩
  intro f' y hk hg
  rcases getF_auth hg with h | ⟨a, b⟩
  · exact Or.inl h
  · exact Or.inr ⟨a, hk, b⟩

theorem Sim.putKeep {md : Mode} {d : Bool} {m : Mem} {lv : Levels} {w : BdsState} (S : Sim p md d m lv w) {j : Nat} {x : Bytes}
    (hj : j < p.tree_height / 2) (hx : x.length = p.n) : ∃ m', store m (md.ptr p (.keep j)) x = some m' ∧ OnlyIn m m' (md.ranges p) ∧
      Sim p md d m' lv { w with keep := w.keep.set j x } := by
  obtain ⟨m', h1, h2, h3⟩ := S.put (f := .keep j) hj (by cases md <;> trivial) hx
  refine ⟨m', h1, h2, h3 d _ (S.fit.keep hx) ?_ (Or.inl fun j l a b => ⟨a, b⟩)⟩
  intro f' y hk hg
  rcases getF_keep hg with h | ⟨a, b⟩
  · exact Or.inl h
  · exact Or.inr ⟨a, hk, b⟩

theorem Sim.putStack {md : Mode} {d : Bool} {m : Mem} {lv : Levels} {w : BdsState} (S : Sim p md d m lv w) {j : Nat} {x : Bytes}
    (hj : j < p.tree_height + 1) (hx : x.length = p.n) : ∃ m', store m (md.ptr p (.stack j)) x = some m' ∧ OnlyIn m m' (md.ranges p) ∧
      Sim p md d m' lv { w with stack := w.stack.set j x } := by
  obtain ⟨m', h1, h2, h3⟩ := S.put (f := .stack j) hj (by cases md <;> trivial) hx
  refine ⟨m', h1, h2, h3 d _ (S.fit.stack hx) ?_ (Or.inl fun j l a b => ⟨a, b⟩)⟩
  intro f' y hk hg
  rcases getF_stack hg with h | ⟨a, b⟩
  · exact Or.inl h
  · exact Or.inr ⟨a, hk, b⟩

/-- Storing a node of an instance; storing that of instance 0 makes it known again. -/
theorem Sim.putNode {md : Mode} {d : Bool} {m : Mem} {lv : Levels} {w : BdsState} (S : Sim p md d m lv w) {j : Nat} {t : TreehashInst}
    (hj : j < p.tree_height) (ht : t.h < 256 ∧ t.stackusage < 256 ∧ t.completed < 256 ∧ t.node.length = p.n) (hd : d = true → j = 0) :
    ∃ m', store m (md.ptr p (.node j)) t.node = some m' ∧ OnlyIn m m' (md.ranges p) ∧
      Sim p md false m' lv { w with treehash := w.treehash.set j t } := by
  obtain ⟨m', h1, h2, h3⟩ := S.put (f := .node j) hj (by cases md <;> trivial) ht.2.2.2
  refine ⟨m', h1, h2, h3 false _ (S.fit.inst ht) ?_ (Or.inl fun j l a b => ⟨a, b⟩)⟩
  intro f' y hk hg
  rcases getF_node hg with h | ⟨a, b⟩
  · exact Or.inl h
  · refine Or.inr ⟨a, ⟨?_, hk.2⟩, b⟩
    intro h e
    rw [hd h] at a
    exact a e

theorem known_mono {md : Mode} {d : Bool} {so so' : Nat} {f : F} (h : md.known d so' f) (hle : so' ≤ so) : md.known d so f := by
  refine ⟨h.1, ?_⟩
  have := h.2
  cases md with
  | upd b => trivial
  | ini b M =>
    cases f with
    | stack j => exact Nat.lt_of_lt_of_le this hle
    | lev j => exact this
    | _ => trivial

/-- Setting a level, with a new offset: not larger, or larger by the slot whose node is there. -/
theorem Sim.putLev {md : Mode} {d : Bool} {m : Mem} {lv : Levels} {w : BdsState} (S : Sim p md d m lv w) {j v so : Nat}
    (hj : j < p.tree_height + 1) (hv : v < 256) (hso : so < 2 ^ 32)
    (hn : so ≤ w.stackoffset ∨ (so = w.stackoffset + 1 ∧ j = w.stackoffset ∧
      ∀ x, w.stack[j]? = some x → load m (md.ptr p (.stack j)) p.n = some x)) :
    ∃ lv' m', lv.set m j v = some (lv', m') ∧ OnlyIn m m' (md.ranges p) ∧
      Sim p md d m' lv' { w with stacklevels := w.stacklevels.set j v, stackoffset := so } := by
  have hl := S.levs
  have hrel' : ∀ m' : Mem, (∀ f x, f ≠ .lev j → okF p f → load m (md.ptr p f) (lenF p f) = some x → load m' (md.ptr p f) (lenF p f) = some x) →
      ∀ f x, f ≠ .lev j → md.known d so f → getF w f = some x → load m' (md.ptr p f) (lenF p f) = some x := by
    intro m' hm f x hne hk hg
    refine hm f x hne (S.fit.ok hg) ?_
    rcases hn with h | ⟨h1, h2, h3⟩
    · exact S.rel f x (known_mono hk h) hg
    · by_cases e : f = .stack j
      · subst e; exact h3 x hg
      · refine S.rel f x ⟨hk.1, ?_⟩ hg
        have := hk.2
        cases md with
        | upd b => trivial
        | ini b M =>
          cases f with
          | stack i =>
            have : i < so := this
            have : i ≠ j := fun e' => e (by rw [e'])
            show i < w.stackoffset
            omega
          | lev i => exact this
          | _ => trivial
  cases md with
  | upd b =>
    obtain ⟨m', h1, h2, h3⟩ := S.put (f := .lev j) (x := [UInt8.ofNat v]) hj trivial rfl
    refine ⟨lv, m', ?_, h2, ?_⟩
    · rw [show lv = .mem (b + offF p (.lev 0)) from hl]
      show (store m (b + offF p (.lev 0) + j) _).map _ = _
      have e : b + offF p (.lev 0) + j = b + offF p (.lev j) := by rw [add_add]; rfl
      rw [e, w8, Nat.mod_eq_of_lt hv]
      rw [show store m (b + offF p (.lev j)) [UInt8.ofNat v] = some m' from h1]
      rfl
    · refine h3 d _ (S.fit.lev hv hso) ?_ (Or.inr ⟨b, rfl⟩)
      intro f' y hk hg
      rcases getF_lev hg with h | ⟨a, c⟩
      · exact Or.inl h
      · exact Or.inr ⟨a, ⟨hk.1, trivial⟩, c⟩
  | ini b M =>
    obtain ⟨arr, e1, e2, e3⟩ := hl
    refine ⟨.loc (arr.set j (some v)), m, ?_, onlyIn_refl _ _, ?_⟩
    · rw [e1]
      show (uset arr j (w32 v)).map _ = _
      rw [uset, if_pos (by omega), w32_lt (by omega)]
      rfl
    · refine ⟨S.fit.lev hv hso, ?_, S.room, S.sep, ?_⟩
      · intro f x hk hg
        have hne : f ≠ .lev j := by rintro rfl; exact hk.2
        rcases getF_lev hg with h | ⟨_, c⟩
        · exact absurd h.1 hne
        · exact hrel' m (fun f x _ _ h => h) f x hne hk c
      · refine ⟨_, rfl, by simpa using e2, ?_⟩
        intro i l hi hil
        rcases set_get hil with ⟨rfl, rfl⟩ | ⟨h1, h2⟩
        · rw [List.getElem?_set_self (by omega)]
        · rw [List.getElem?_set_ne (fun e => h1 e.symm)]
          refine e3 i l ?_ h2
          have hi : i < so := hi
          rcases hn with h | ⟨h4, h5, _⟩ <;> omega

/-- The ghost counter does not matter. -/
theorem Sim.ghost {md : Mode} {d : Bool} {m : Mem} {lv : Levels} {w : BdsState} (S : Sim p md d m lv w) (k : Nat) :
    Sim p md d m lv { w with leaves := k } :=
  ⟨S.fit.leaves, fun f x hk hg => S.rel f x hk (by cases f <;> exact hg), S.room, S.sep, by cases md <;> exact S.levs⟩

/-- Reading a component. -/
theorem Sim.get {md : Mode} {d : Bool} {m : Mem} {lv : Levels} {w : BdsState} (S : Sim p md d m lv w) {f : F} {x : Bytes}
    (hk : md.known d w.stackoffset f) (h : getF w f = some x) : load m (md.ptr p f) (lenF p f) = some x := S.rel f x hk h

end Xmss.Low
