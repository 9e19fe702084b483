import Verif.Model.LowFast
import Verif.Proof.LowObs
import Verif.Proof.LowTree
/-
The relation between a BDS state of the first model (a value) and the pointer-level model (a structure of pointers into
memory): where the components of a state lie, and what a store to one of them does to the others.
-/
namespace Xmss.Low

variable {P : Prims} {H : Bytes → Bytes} {p : Params}

/-! ### Frames -/

theorem keepLoad {m m' : Mem} {rs : List (Ptr × Nat)} (ho : OnlyIn m m' rs) {q : Ptr} {len : Nat} {x : Bytes}
    (h : load m q len = some x) (hd : ∀ r ∈ rs, Disj q len r.1 r.2) : load m' q len = some x := by
  have hl := load_length h
  subst hl
  exact holds_iff.mp ((holds_iff.mpr h).keep ho hd)

theorem keepValid {m m' : Mem} {rs : List (Ptr × Nat)} (ho : OnlyIn m m' rs) {q : Ptr} {len : Nat} (h : Valid m q len) :
    Valid m' q len := Room.keep h ho

theorem OnlyIn.len {m m' : Mem} {rs : List (Ptr × Nat)} (ho : OnlyIn m m' rs) : m'.length = m.length := by
  have := congrArg List.length ho.1
  simpa using this

theorem OnlyIn.tr {m1 m2 m3 : Mem} {a : List (Ptr × Nat)} (h1 : OnlyIn m1 m2 a) (h2 : OnlyIn m2 m3 a) : OnlyIn m1 m3 a :=
  h1.trans h2 (fun _ _ h => h) fun _ _ h => h

theorem OnlyIn.sub {m1 m2 : Mem} {a c : List (Ptr × Nat)} (h1 : OnlyIn m1 m2 a) (hs : ∀ r ∈ a, r ∈ c) : OnlyIn m1 m2 c :=
  h1.mono fun _ _ ⟨r, hr, h⟩ => ⟨r, hs r hr, h⟩

/-- A store inside of a range. -/
theorem store_in {m m' : Mem} {q r : Ptr} {x : Bytes} {len : Nat} {rs : List (Ptr × Nat)} (h : store m q x = some m') (hm : (r, len) ∈ rs)
    (hb : q.blk = r.blk) (h1 : r.off ≤ q.off) (h2 : q.off + x.length ≤ r.off + len) : OnlyIn m m' rs := by
  refine (store_onlyIn h).mono ?_
  intro b i hw
  rw [within_one] at hw
  exact ⟨(r, len), hm, by rw [← hb]; exact hw.1, by show r.off ≤ i; omega, by show i < r.off + len; omega⟩

theorem cell_append_left {m L : Mem} {b i : Nat} (h : b < m.length) : cell (m ++ L) b i = cell m b i := by
  unfold cell; rw [List.getElem?_append_left h]

theorem cell_take {m : Mem} {N b i : Nat} (h : b < N) : cell (m.take N) b i = cell m b i := by
  unfold cell; rw [List.getElem?_take, if_pos h]

theorem OnlyIn.release {m0 L m' : Mem} {rs rs' : List (Ptr × Nat)} (h : OnlyIn (m0 ++ L) m' rs)
    (hr : ∀ r ∈ rs, r ∈ rs' ∨ m0.length ≤ r.1.blk) : OnlyIn m0 (release m0 m') rs' := by
  have hlen := h.len
  rw [List.length_append] at hlen
  refine ⟨?_, ?_⟩
  · show (m'.take m0.length).map List.length = _
    rw [List.map_take, h.1, List.map_append]
    rw [List.take_left' (by simp)]
  · intro b i hw
    by_cases hb : b < m0.length
    · rw [show Low.release m0 m' = m'.take m0.length from rfl, cell_take hb, h.2 b i, cell_append_left hb]
      rintro ⟨r, hm, h1, h2, h3⟩
      rcases hr r hm with h4 | h4
      · exact hw ⟨r, h4, h1, h2, h3⟩
      · omega
    · unfold cell
      rw [List.getElem?_eq_none (by rw [show Low.release m0 m' = m'.take m0.length from rfl, List.length_take]; omega),
        List.getElem?_eq_none (by omega)]

theorem load_release {m0 m' : Mem} {q : Ptr} {len : Nat} (h : q.blk < m0.length) : load (release m0 m') q len = load m' q len := by
  unfold load release
  rw [List.getElem?_take, if_pos h]

theorem valid_release {m0 m' : Mem} {q : Ptr} {len : Nat} (h : q.blk < m0.length) (hv : Valid m' q len) : Valid (release m0 m') q len := by
  obtain ⟨b, h1, h2⟩ := hv
  exact ⟨b, by rw [release, List.getElem?_take, if_pos h]; exact h1, h2⟩

theorem onlyIn_append {m m' L : Mem} {rs : List (Ptr × Nat)} (h : OnlyIn m m' rs) : OnlyIn (m ++ L) (m' ++ L) rs := by
  refine ⟨by rw [List.map_append, List.map_append, h.1], ?_⟩
  intro b i hw
  by_cases hb : b < m.length
  · rw [cell_append_left hb, cell_append_left (by rw [h.len]; exact hb), h.2 b i hw]
  · unfold cell
    rw [List.getElem?_append_right (by rw [h.len]; omega), List.getElem?_append_right (by omega), h.len]

theorem memcpy_of {m : Mem} {dst src : Ptr} {len : Nat} {x : Bytes} (h : load m src len = some x) (hd : dst = src ∨ Disj dst len src len) :
    memcpy m dst src len = store m dst x := by
  unfold memcpy
  rw [if_neg, h]
  · rfl
  · rintro ⟨h1, h2, h3, h4⟩
    rcases hd with rfl | hd
    · exact h2 rfl
    · unfold Disj at hd; omega

/-! ### Where the components of a state lie -/

/-- A component of a state that lies in memory. -/
inductive F where
  | stack (j : Nat)
  | lev (j : Nat)
  | auth (j : Nat)
  | keep (j : Nat)
  | node (j : Nat)
deriving DecidableEq

/-- Bytes of one state in the secret key (`bds_k` = 0). -/
def stSize (p : Params) : Nat :=
  (p.tree_height + 1) * p.n + 4 + (p.tree_height + 1) + p.tree_height * p.n + (p.tree_height / 2) * p.n + p.tree_height * (7 + p.n) + 4

def offF (p : Params) : F → Nat
  | .stack j => j * p.n
  | .lev j => (p.tree_height + 1) * p.n + 4 + j
  | .auth j => (p.tree_height + 1) * p.n + 4 + (p.tree_height + 1) + j * p.n
  | .keep j => (p.tree_height + 1) * p.n + 4 + (p.tree_height + 1) + p.tree_height * p.n + j * p.n
  | .node j => (p.tree_height + 1) * p.n + 4 + (p.tree_height + 1) + p.tree_height * p.n + (p.tree_height / 2) * p.n + j * (7 + p.n) + 7

def lenF (p : Params) : F → Nat
  | .lev _ => 1
  | _ => p.n

def okF (p : Params) : F → Prop
  | .stack j => j < p.tree_height + 1
  | .lev j => j < p.tree_height + 1
  | .auth j => j < p.tree_height
  | .keep j => j < p.tree_height / 2
  | .node j => j < p.tree_height

theorem mul_end {j N n : Nat} (h : j < N) : j * n + n ≤ N * n := by
  calc j * n + n = (j + 1) * n := by ring
    _ ≤ N * n := Nat.mul_le_mul_right _ h

theorem offF_le {f : F} (h : okF p f) : offF p f + lenF p f + 4 ≤ stSize p := by
  cases f with
  | stack j =>
    have := mul_end (n := p.n) h; simp only [offF, lenF, stSize]; omega
  | lev j => simp only [okF] at h; simp only [offF, lenF, stSize]; omega
  | auth j => have := mul_end (n := p.n) h; simp only [offF, lenF, stSize]; omega
  | keep j => have := mul_end (n := p.n) h; simp only [offF, lenF, stSize]; omega
  | node j => have := mul_end (n := 7 + p.n) h; simp only [offF, lenF, stSize]; omega

theorem mul_apart {i j n k : Nat} (h : i ≠ j) (hk : k ≤ n) : i * n + k ≤ j * n ∨ j * n + k ≤ i * n := by
  rcases Nat.lt_or_gt_of_ne h with h | h
  · left; have := mul_end (n := n) h; omega
  · right; have := mul_end (n := n) h; omega

theorem offF_apart {f f' : F} (h : okF p f) (h' : okF p f') (hne : f ≠ f') :
    offF p f + lenF p f ≤ offF p f' ∨ offF p f' + lenF p f' ≤ offF p f := by
  cases f with
  | stack j =>
    have e := mul_end (n := p.n) h
    cases f' with
    | stack i =>
      have := mul_apart (n := p.n) (k := p.n) (i := j) (j := i) (by rintro rfl; exact hne rfl) (Nat.le_refl _)
      simp only [offF, lenF]; omega
    | _ => simp only [offF, lenF]; omega
  | lev j =>
    simp only [okF] at h
    cases f' with
    | stack i => have := mul_end (n := p.n) h'; simp only [offF, lenF]; omega
    | lev i => simp only [offF, lenF]; have : j ≠ i := by { rintro rfl; exact hne rfl }; omega
    | _ => simp only [offF, lenF]; omega
  | auth j =>
    have e := mul_end (n := p.n) h
    cases f' with
    | stack i => have := mul_end (n := p.n) h'; simp only [offF, lenF]; omega
    | lev i => simp only [okF] at h'; simp only [offF, lenF]; omega
    | auth i =>
      have := mul_apart (n := p.n) (k := p.n) (i := j) (j := i) (by rintro rfl; exact hne rfl) (Nat.le_refl _)
      simp only [offF, lenF]; omega
    | _ => simp only [offF, lenF]; omega
  | keep j =>
    have e := mul_end (n := p.n) h
    cases f' with
    | stack i => have := mul_end (n := p.n) h'; simp only [offF, lenF]; omega
    | lev i => simp only [okF] at h'; simp only [offF, lenF]; omega
    | auth i => have := mul_end (n := p.n) h'; simp only [offF, lenF]; omega
    | keep i =>
      have := mul_apart (n := p.n) (k := p.n) (i := j) (j := i) (by rintro rfl; exact hne rfl) (Nat.le_refl _)
      simp only [offF, lenF]; omega
    | _ => simp only [offF, lenF]; omega
  | node j =>
    have e := mul_end (n := 7 + p.n) h
    cases f' with
    | stack i => have := mul_end (n := p.n) h'; simp only [offF, lenF]; omega
    | lev i => simp only [okF] at h'; simp only [offF, lenF]; omega
    | auth i => have := mul_end (n := p.n) h'; simp only [offF, lenF]; omega
    | keep i => have := mul_end (n := p.n) h'; simp only [offF, lenF]; omega
    | node i =>
      have := mul_apart (n := 7 + p.n) (k := 7 + p.n) (i := j) (j := i) (by rintro rfl; exact hne rfl) (Nat.le_refl _)
      simp only [offF, lenF]; omega

/-- The content of a component. -/
def getF (w : BdsState) : F → Option Bytes
  | .stack j => w.stack[j]?
  | .lev j => (w.stacklevels[j]?).map fun l => [UInt8.ofNat l]
  | .auth j => w.auth[j]?
  | .keep j => w.keep[j]?
  | .node j => (w.treehash[j]?).map (·.node)

/-- Sizes of the arrays of a state (`bds_k` = 0). -/
structure Fit (p : Params) (w : BdsState) : Prop where
  stack_len : w.stack.length = p.tree_height + 1
  stack_mem : ∀ x ∈ w.stack, x.length = p.n
  levels_len : w.stacklevels.length = p.tree_height + 1
  levels_mem : ∀ x ∈ w.stacklevels, x < 256
  auth_len : w.auth.length = p.tree_height
  auth_mem : ∀ x ∈ w.auth, x.length = p.n
  keep_len : w.keep.length = p.tree_height / 2
  keep_mem : ∀ x ∈ w.keep, x.length = p.n
  insts_len : w.treehash.length = p.tree_height
  insts_mem : ∀ t ∈ w.treehash, t.h < 256 ∧ t.stackusage < 256 ∧ t.completed < 256 ∧ t.node.length = p.n
  retain_nil : w.retain = []
  off_lt : w.stackoffset < 2 ^ 32

theorem Fit.ok {w : BdsState} (ft : Fit p w) {f : F} {x : Bytes} (h : getF w f = some x) : okF p f := by
  cases f with
  | stack j => have := (List.getElem?_eq_some_iff.mp h).1; rw [ft.stack_len] at this; exact this
  | lev j =>
    obtain ⟨l, h1, _⟩ := Option.map_eq_some_iff.mp h
    have := (List.getElem?_eq_some_iff.mp h1).1; rw [ft.levels_len] at this; exact this
  | auth j => have := (List.getElem?_eq_some_iff.mp h).1; rw [ft.auth_len] at this; exact this
  | keep j => have := (List.getElem?_eq_some_iff.mp h).1; rw [ft.keep_len] at this; exact this
  | node j =>
    obtain ⟨l, h1, _⟩ := Option.map_eq_some_iff.mp h
    have := (List.getElem?_eq_some_iff.mp h1).1; rw [ft.insts_len] at this; exact this

theorem Fit.len {w : BdsState} (ft : Fit p w) {f : F} {x : Bytes} (h : getF w f = some x) : x.length = lenF p f := by
  cases f with
  | stack j => exact ft.stack_mem _ (List.mem_of_getElem? h)
  | lev j =>
    obtain ⟨l, h1, rfl⟩ := Option.map_eq_some_iff.mp h
    rfl
  | auth j => exact ft.auth_mem _ (List.mem_of_getElem? h)
  | keep j => exact ft.keep_mem _ (List.mem_of_getElem? h)
  | node j =>
    obtain ⟨l, h1, rfl⟩ := Option.map_eq_some_iff.mp h
    exact (ft.insts_mem _ (List.mem_of_getElem? h1)).2.2.2

/-! ### The two places of the stack -/

/-- Where the stack is: in the state at `b` (`bds_state_update` and others), or in the local array `M` (`treehash_init`). -/
inductive Mode where
  | upd (b : Ptr)
  | ini (b : Ptr) (M : Nat)

def Mode.base : Mode → Ptr
  | .upd b => b
  | .ini b _ => b

def Mode.ptr (p : Params) : Mode → F → Ptr
  | .upd b, f => b + offF p f
  | .ini _ M, .stack j => ⟨M, j * p.n⟩
  | .ini b _, f => b + offF p f

def Mode.ranges (p : Params) : Mode → List (Ptr × Nat)
  | .upd b => [(b, stSize p)]
  | .ini b M => [(b + offF p (.auth 0), stSize p - offF p (.auth 0)), (⟨M, 0⟩, (p.tree_height + 1) * p.n)]

/-- Components whose content in memory is known; `d`: the node of instance 0 is not. -/
def Mode.known (md : Mode) (d : Bool) (so : Nat) (f : F) : Prop :=
  (d = true → f ≠ .node 0) ∧
  match md with
  | .upd _ => True
  | .ini _ _ => match f with
    | .stack j => j < so
    | .lev _ => False
    | _ => True

/-- Components that lie in memory. -/
def Mode.has (md : Mode) (f : F) : Prop :=
  match md, f with
  | .ini _ _, .lev _ => False
  | _, _ => True

def Mode.sep : Mode → Prop
  | .upd _ => True
  | .ini b M => b.blk ≠ M

def Mode.levs (p : Params) : Mode → Levels → BdsState → Prop
  | .upd b, lv, _ => lv = .mem (b + offF p (.lev 0))
  | .ini _ _, lv, w => ∃ arr : UArr, lv = .loc arr ∧ arr.length = p.tree_height + 1 ∧
      ∀ j l, j < w.stackoffset → w.stacklevels[j]? = some l → arr[j]? = some (some l)

structure Sim (p : Params) (md : Mode) (d : Bool) (m : Mem) (lv : Levels) (w : BdsState) : Prop where
  fit : Fit p w
  rel : ∀ f x, md.known d w.stackoffset f → getF w f = some x → load m (md.ptr p f) (lenF p f) = some x
  room : ∀ r ∈ md.ranges p, Valid m r.1 r.2
  sep : md.sep
  levs : md.levs p lv w

theorem Mode.ptr_in {md : Mode} {f : F} (h : okF p f) (hh : md.has f) :
    ∃ r len, (r, len) ∈ md.ranges p ∧ (md.ptr p f).blk = r.blk ∧ r.off ≤ (md.ptr p f).off ∧
      (md.ptr p f).off + lenF p f ≤ r.off + len := by
  have hl := offF_le h
  cases md with
  | upd b => exact ⟨b, stSize p, by simp [Mode.ranges], rfl, Nat.le_add_right _ _, by show b.off + offF p f + _ ≤ _; omega⟩
  | ini b M =>
    cases f with
    | stack j =>
      have := mul_end (n := p.n) h
      exact ⟨⟨M, 0⟩, (p.tree_height + 1) * p.n, by simp [Mode.ranges], rfl, Nat.zero_le _, by show j * p.n + p.n ≤ 0 + _; omega⟩
    | lev j => exact hh.elim
    | auth j =>
      refine ⟨b + offF p (.auth 0), stSize p - offF p (.auth 0), by simp [Mode.ranges], rfl, ?_, ?_⟩
      · show b.off + offF p (.auth 0) ≤ b.off + offF p (.auth j); simp only [offF]; omega
      · show b.off + offF p (.auth j) + _ ≤ b.off + offF p (.auth 0) + _; simp only [offF, lenF] at hl ⊢; omega
    | keep j =>
      refine ⟨b + offF p (.auth 0), stSize p - offF p (.auth 0), by simp [Mode.ranges], rfl, ?_, ?_⟩
      · show b.off + offF p (.auth 0) ≤ b.off + offF p (.keep j); simp only [offF]; omega
      · show b.off + offF p (.keep j) + _ ≤ b.off + offF p (.auth 0) + _; simp only [offF, lenF] at hl ⊢; omega
    | node j =>
      refine ⟨b + offF p (.auth 0), stSize p - offF p (.auth 0), by simp [Mode.ranges], rfl, ?_, ?_⟩
      · show b.off + offF p (.auth 0) ≤ b.off + offF p (.node j); simp only [offF]; omega
      · show b.off + offF p (.node j) + _ ≤ b.off + offF p (.auth 0) + _; simp only [offF, lenF] at hl ⊢; omega

theorem Mode.ptr_disj {md : Mode} (hs : md.sep) {f f' : F} (h : okF p f) (h' : okF p f')
    (hne : f ≠ f') : Disj (md.ptr p f) (lenF p f) (md.ptr p f') (lenF p f') := by
  have ha := offF_apart h h' hne
  have hg : ∀ b : Ptr, Disj (b + offF p f) (lenF p f) (b + offF p f') (lenF p f') := by
    intro b
    right
    show b.off + offF p f + _ ≤ b.off + offF p f' ∨ b.off + offF p f' + _ ≤ b.off + offF p f
    omega
  cases md with
  | upd b => exact hg b
  | ini b M =>
    cases f with
    | stack j =>
      cases f' with
      | stack i =>
        have := mul_apart (n := p.n) (k := p.n) (i := j) (j := i) (by rintro rfl; exact hne rfl) (Nat.le_refl _)
        exact Or.inr this
      | _ => exact Or.inl (Ne.symm hs)
    | _ =>
      cases f' with
      | stack i => exact Or.inl hs
      | _ => exact hg b

theorem Sim.valid {md : Mode} {d : Bool} {m : Mem} {lv : Levels} {w : BdsState} (h : Sim p md d m lv w) {f : F} (hf : okF p f)
    (hh : md.has f) : Valid m (md.ptr p f) (lenF p f) := by
  obtain ⟨r, len, h1, h2, h3, h4⟩ := Mode.ptr_in hf hh
  obtain ⟨b, e1, e2⟩ := h.room _ h1
  exact ⟨b, by rw [h2]; exact e1, by simp only at e2; omega⟩

/-- Storing to one component. -/
theorem Sim.put {md : Mode} {d : Bool} {m : Mem} {lv : Levels} {w : BdsState} (h : Sim p md d m lv w) {f : F} (hf : okF p f)
    (hh : md.has f) {x : Bytes} (hx : x.length = lenF p f) :
    ∃ m', store m (md.ptr p f) x = some m' ∧ OnlyIn m m' (md.ranges p) ∧
      ∀ (d' : Bool) (w' : BdsState), Fit p w' →
        (∀ f' y, md.known d' w'.stackoffset f' → getF w' f' = some y → (f' = f ∧ y = x) ∨
          (f' ≠ f ∧ md.known d w.stackoffset f' ∧ getF w f' = some y)) →
        (∀ j l, j < w'.stackoffset → w'.stacklevels[j]? = some l → j < w.stackoffset ∧ w.stacklevels[j]? = some l) ∨ (∃ b, md = .upd b) →
        Sim p md d' m' lv w' := by
  obtain ⟨m', hm'⟩ := (h.valid hf hh).store (x := x) (by omega)
  obtain ⟨r, len, h1, h2, h3, h4⟩ := Mode.ptr_in hf hh
  have ho : OnlyIn m m' (md.ranges p) := store_in hm' h1 h2 h3 (by omega)
  refine ⟨m', hm', ho, ?_⟩
  intro d' w' ft hrel hlev
  refine ⟨ft, ?_, fun r hr => keepValid ho (h.room r hr), h.sep, ?_⟩
  · intro f' y hk hg
    rcases hrel f' y hk hg with ⟨rfl, rfl⟩ | ⟨hne, hk', hg'⟩
    · rw [← hx]; exact load_store_self hm'
    · rw [load_store_disj hm' (by rw [hx]; exact Mode.ptr_disj h.sep (h.fit.ok hg') hf hne)]
      exact h.rel f' y hk' hg'
  · have := h.levs
    cases md with
    | upd b => exact this
    | ini b M =>
      obtain ⟨arr, e1, e2, e3⟩ := this
      refine ⟨arr, e1, e2, ?_⟩
      rcases hlev with hlev | ⟨_, hb⟩
      · intro j l hj hl
        obtain ⟨a, b⟩ := hlev j l hj hl
        exact e3 j l a b
      · cases hb

/-- Reading a level. -/
theorem Sim.lget {md : Mode} {m : Mem} {lv : Levels} {w : BdsState} {d : Bool} (h : Sim p md d m lv w) {j l : Nat} (hj : j < w.stackoffset)
    (hl : w.stacklevels[j]? = some l) : lv.get m j = some l := by
  have hlt := h.fit.levels_mem l (List.mem_of_getElem? hl)
  have hlv := h.levs
  cases md with
  | upd b =>
    have hr := h.rel (.lev j) [UInt8.ofNat l] ⟨by intro _; simp, trivial⟩ (by rw [getF, hl]; rfl)
    rw [show lv = .mem (b + offF p (.lev 0)) from hlv]
    have e : b + offF p (.lev 0) + j = b + offF p (.lev j) := by rw [add_add]; rfl
    show (load m (b + offF p (.lev 0) + j) 1).map _ = _
    rw [e]
    rw [show load m (b + offF p (.lev j)) 1 = some [UInt8.ofNat l] from hr]
    simp only [Option.map_some, List.headD_cons, UInt8.toNat_ofNat', Option.some.injEq]
    exact Nat.mod_eq_of_lt hlt
  | ini b M =>
    obtain ⟨arr, rfl, _, e3⟩ := hlv
    show uget arr j = _
    rw [uget, e3 j l hj hl]
    rfl

/-- Moving to another memory that agrees on the state. -/
theorem Sim.keep {b : Ptr} {m m' : Mem} {lv : Levels} {w : BdsState} {d : Bool} (h : Sim p (.upd b) d m lv w) {rs : List (Ptr × Nat)}
    (ho : OnlyIn m m' rs) (hd : ∀ r ∈ rs, Disj b (stSize p) r.1 r.2) : Sim p (.upd b) d m' lv w := by
  refine ⟨h.fit, ?_, fun r hr => keepValid ho (h.room r hr), h.sep, h.levs⟩
  intro f x hk hg
  refine keepLoad ho (h.rel f x hk hg) ?_
  intro r hr
  have hle := offF_le (h.fit.ok hg)
  rcases hd r hr with h1 | h1
  · exact Or.inl h1
  · right; show b.off + offF p f + _ ≤ _ ∨ _ ≤ b.off + offF p f; omega

theorem Sim.append {b : Ptr} {m L : Mem} {lv : Levels} {w : BdsState} {d : Bool} (h : Sim p (.upd b) d m lv w) :
    Sim p (.upd b) d (m ++ L) lv w := by
  refine ⟨h.fit, ?_, fun r hr => (h.room r hr).left, h.sep, h.levs⟩
  intro f x hk hg
  rw [load_left (load_blk (h.rel f x hk hg))]
  exact h.rel f x hk hg

theorem Sim.blk {b : Ptr} {m : Mem} {lv : Levels} {w : BdsState} {d : Bool} (h : Sim p (.upd b) d m lv w) : b.blk < m.length :=
  (h.room (b, stSize p) (by simp [Mode.ranges])).blk

theorem Sim.release {b : Ptr} {m0 m : Mem} {lv : Levels} {w : BdsState} {d : Bool} (h : Sim p (.upd b) d m lv w) (hb : b.blk < m0.length) :
    Sim p (.upd b) d (release m0 m) lv w := by
  refine ⟨h.fit, ?_, ?_, h.sep, h.levs⟩
  · intro f x hk hg
    rw [load_release (by exact hb)]
    exact h.rel f x hk hg
  · intro r hr
    simp only [Mode.ranges, List.mem_singleton] at hr
    subst hr
    exact valid_release hb (h.room _ (by simp [Mode.ranges]))

end Xmss.Low
