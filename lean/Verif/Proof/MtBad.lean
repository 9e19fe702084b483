import Verif.Proof.MtSign
import Verif.Proof.BdsSafe
/-
The traversal of layer 3 after an unfinished tree took over (tree height 5).
-/
namespace Xmss
open Sched

variable {H : Bytes → Bytes} {p : Params}

/-! ### Single updates, whatever the nodes are -/

section
variable {skSeed pubSeed : Bytes} {layer tree : Nat} {N : Nat → Nat → Bytes} {a : Addr}

/-- First leaf of an instance of height 0. -/
theorem upd_leaf {s : BdsState} {lvl : Nat} {t : TreehashInst} (ctx : TreeCtx H p skSeed pubSeed layer tree N) (ha : IsSub a layer tree)
    (ht : s.treehash[lvl]? = some t) (hh : t.h = 0) (hu : t.stackusage = 0) :
    ∃ nd : Bytes, nd.length = p.n ∧ treehashUpdate H p s lvl skSeed pubSeed a =
      some { s with treehash := s.treehash.set lvl { t with node := nd, completed := 1, stackusage := 0 }, leaves := s.leaves + 1 } := by
  have hleaf := (ctx.leaf (ltreeOf a) (otsOf a) t.nextIdx 0 0 ha.ltree ha.ots).1
  refine ⟨N 0 t.nextIdx, ctx.len _ _, ?_⟩
  rw [treehashUpdate, ht]
  simp only [Option.bind_eq_bind, Option.bind_some]
  rw [hleaf, hu]
  simp [updateMerge, hh]

/-- First leaf of a higher instance. -/
theorem upd_push {s : BdsState} {lvl : Nat} {t : TreehashInst} (ctx : TreeCtx H p skSeed pubSeed layer tree N) (ha : IsSub a layer tree)
    (ht : s.treehash[lvl]? = some t) (hh : t.h ≠ 0) (hu : t.stackusage = 0) (h1 : s.stackoffset < s.stack.length)
    (h2 : s.stackoffset < s.stacklevels.length) :
    ∃ nd : Bytes, nd.length = p.n ∧ treehashUpdate H p s lvl skSeed pubSeed a =
      some { s with
        stack := s.stack.set s.stackoffset nd
        stacklevels := s.stacklevels.set s.stackoffset 0
        stackoffset := s.stackoffset + 1
        treehash := s.treehash.set lvl { t with stackusage := 1, nextIdx := t.nextIdx + 1 }
        leaves := s.leaves + 1 } := by
  have hleaf := (ctx.leaf (ltreeOf a) (otsOf a) t.nextIdx 0 0 ha.ltree ha.ots).1
  refine ⟨N 0 t.nextIdx, ctx.len _ _, ?_⟩
  rw [treehashUpdate, ht]
  simp only [Option.bind_eq_bind, Option.bind_some]
  rw [hleaf, hu]
  simp only [updateMerge, Option.bind_some]
  rw [if_neg (Ne.symm hh), setA_some h1, setA_some h2]
  rfl

/-- Second leaf: it is combined with the first; an instance of height 1 is complete. -/
theorem upd_merge1 {s : BdsState} {lvl : Nat} {t : TreehashInst} (hH : ∀ x, (H x).length = p.n)
    (ht : s.treehash[lvl]? = some t) (hh : t.h = 1) (hu : t.stackusage = 1) (h0 : 0 < s.stackoffset)
    (h1 : s.stackoffset ≤ s.stack.length) (h2 : s.stacklevels[s.stackoffset - 1]? = some 0) :
    ∃ nd : Bytes, nd.length = p.n ∧ treehashUpdate H p s lvl skSeed pubSeed a =
      some { s with
        stackoffset := s.stackoffset - 1
        treehash := s.treehash.set lvl { t with node := nd, completed := 1, stackusage := 0 }
        leaves := s.leaves + 1 } := by
  obtain ⟨nd, hnd⟩ : ∃ nd, nd = s.stack[s.stackoffset - 1]'(by omega) := ⟨_, rfl⟩
  have h3 : s.stack[s.stackoffset - 1]? = some nd := by rw [hnd, List.getElem?_eq_getElem]
  refine ⟨_, thashH_length hH (nd ++ (genLeafWots H p skSeed pubSeed (setLtreeAddr (ltreeOf a) t.nextIdx) (setOtsAddr (otsOf a) t.nextIdx)).1)
    pubSeed (setTreeIndex (setTreeHeight (nodeOf a) 0) (t.nextIdx >>> (0 + 1))), ?_⟩
  rw [treehashUpdate, ht]
  simp only [Option.bind_eq_bind, Option.bind_some]
  rw [hu, updateMerge, if_neg (by omega)]
  simp only [h2, h3, Option.bind_eq_bind, Option.bind_some, if_true, updateMerge]
  rw [if_pos (by rw [hh])]

/-- Second leaf of a higher instance. -/
theorem upd_merge2 {s : BdsState} {lvl : Nat} {t : TreehashInst} (hH : ∀ x, (H x).length = p.n)
    (ht : s.treehash[lvl]? = some t) (hh : t.h ≠ 1) (hu : t.stackusage = 1) (h0 : 0 < s.stackoffset)
    (h1 : s.stackoffset ≤ s.stack.length) (h2 : s.stacklevels[s.stackoffset - 1]? = some 0) :
    ∃ nd : Bytes, nd.length = p.n ∧ treehashUpdate H p s lvl skSeed pubSeed a =
      some { s with
        stack := s.stack.set (s.stackoffset - 1) nd
        stacklevels := s.stacklevels.set (s.stackoffset - 1) 1
        treehash := s.treehash.set lvl { t with stackusage := 1, nextIdx := t.nextIdx + 1 }
        leaves := s.leaves + 1 } := by
  obtain ⟨nd, hnd⟩ : ∃ nd, nd = s.stack[s.stackoffset - 1]'(by omega) := ⟨_, rfl⟩
  have h3 : s.stack[s.stackoffset - 1]? = some nd := by rw [hnd, List.getElem?_eq_getElem]
  have h4 := (List.getElem?_eq_some_iff.mp h2).1
  refine ⟨_, thashH_length hH (nd ++ (genLeafWots H p skSeed pubSeed (setLtreeAddr (ltreeOf a) t.nextIdx) (setOtsAddr (otsOf a) t.nextIdx)).1)
    pubSeed (setTreeIndex (setTreeHeight (nodeOf a) 0) (t.nextIdx >>> (0 + 1))), ?_⟩
  rw [treehashUpdate, ht]
  simp only [Option.bind_eq_bind, Option.bind_some]
  rw [hu, updateMerge, if_neg (by omega)]
  simp only [h2, h3, Option.bind_eq_bind, Option.bind_some, if_true, updateMerge]
  rw [if_neg (by omega), setA_some (by omega), setA_some h4]
  simp only [Option.bind_some]
  congr 2
  omega

/-- Third leaf of an instance of height at least 2 on a full stack: the code writes outside. -/
theorem upd_overflow {s : BdsState} {lvl : Nat} {t : TreehashInst}
    (ht : s.treehash[lvl]? = some t) (hh : t.h ≠ 0) (hu : t.stackusage = 1) (h0 : 0 < s.stackoffset)
    (h1 : s.stack.length ≤ s.stackoffset) (h2 : s.stacklevels[s.stackoffset - 1]? = some 1) :
    treehashUpdate H p s lvl skSeed pubSeed a = none := by
  rw [treehashUpdate, ht]
  simp only [Option.bind_eq_bind, Option.bind_some]
  rw [hu, updateMerge, if_neg (by omega)]
  simp only [h2, Option.bind_eq_bind, Option.bind_some]
  rw [if_neg (by omega)]
  simp only [Option.bind_some]
  rw [if_neg (Ne.symm hh), setA, if_neg (by omega)]
  rfl

end

/-! ### Which instance is picked -/

/-- `low` of the five instances determines the choice. -/
theorem pick5 {s : BdsState} (h5 : p.insts = 5) (ht : p.tree_height = 5) {l0 l1 l2 l3 l4 : Nat} (e0 : lowOf p s 0 = some l0)
    (e1 : lowOf p s 1 = some l1) (e2 : lowOf p s 2 = some l2) (e3 : lowOf p s 3 = some l3) (e4 : lowOf p s 4 = some l4) :
    pickLevel p s = some (
      let a := if l0 < 5 then (0, l0) else (5, 5)
      let a := if l1 < a.2 then (1, l1) else a
      let a := if l2 < a.2 then (2, l2) else a
      let a := if l3 < a.2 then (3, l3) else a
      (if l4 < a.2 then (4, l4) else a).1) := by
  rw [pickLevel, h5, ht]
  simp only [pickLoop, e0, e1, e2, e3, e4, Option.bind_eq_bind, Option.bind_some]
  split <;> split <;> split <;> split <;> split <;> simp_all

theorem low_done {s : BdsState} {i : Nat} {t : TreehashInst} (ht : s.treehash[i]? = some t) (hc : t.completed ≠ 0) :
    lowOf p s i = some p.tree_height := by
  rw [lowOf, ht]; simp [hc]

theorem low_new {s : BdsState} {i : Nat} {t : TreehashInst} (ht : s.treehash[i]? = some t) (hc : t.completed = 0)
    (hu : t.stackusage = 0) : lowOf p s i = some i := by
  rw [lowOf, ht]; simp [hc, hu]

theorem low_one {s : BdsState} {i l : Nat} {t : TreehashInst} (ht : s.treehash[i]? = some t) (hc : t.completed = 0)
    (hu : t.stackusage = 1) (h0 : 0 < s.stackoffset) (h2 : s.stacklevels[s.stackoffset - 1]? = some l) (hl : l < p.tree_height) :
    lowOf p s i = some l := by
  rw [lowOf, ht]
  simp only [Option.bind_eq_bind, Option.bind_some, hc, hu, minHeightOnStack, minHeightLoop]
  rw [if_neg (by omega), if_neg (by omega), if_neg (by omega)]
  simp [h2, hl]

/-! ### Runs -/

/-- Instance `i` has just been restarted. -/
def IsNew (s : BdsState) (i : Nat) : Prop :=
  ∃ t, s.treehash[i]? = some t ∧ t.completed = 0 ∧ t.h = i ∧ t.stackusage = 0 ∧ t.nextIdx < 2 ^ 31
/-- Instance `i` is complete. -/
def IsDone (s : BdsState) (i : Nat) : Prop := ∃ t, s.treehash[i]? = some t ∧ t.completed ≠ 0

theorem IsNew.low {s : BdsState} {i : Nat} (h : IsNew s i) : lowOf p s i = some i := by
  obtain ⟨t, h1, h2, _, h3, _⟩ := h; exact low_new h1 h2 h3
theorem IsDone.low {s : BdsState} {i : Nat} (h : IsDone s i) : lowOf p s i = some p.tree_height := by
  obtain ⟨t, h1, h2⟩ := h; exact low_done h1 h2

/-- Both cases at once. -/
theorem low_or {s : BdsState} {i : Nat} (h : IsNew s i ∨ IsDone s i) (hi : i ≤ p.tree_height) : ∃ l, lowOf p s i = some l ∧ i ≤ l := by
  rcases h with h | h
  · exact ⟨i, h.low, le_refl _⟩
  · exact ⟨_, h.low, hi⟩

section
variable {skSeed pubSeed : Bytes} {layer tree : Nat} {N : Nat → Nat → Bytes} {a : Addr}

/-- Nothing to do. -/
theorem run_idle (h5 : p.insts = 5) (ht : p.tree_height = 5) {s : BdsState} (hd : ∀ i < 5, IsDone s i) (k used : Nat) :
    bdsUpdateLoop H p skSeed pubSeed a k s used = some (s, used) := by
  cases k with
  | zero => rfl
  | succ k =>
    have := pick5 (p := p) h5 ht (hd 0 (by omega)).low (hd 1 (by omega)).low (hd 2 (by omega)).low (hd 3 (by omega)).low (hd 4 (by omega)).low
    rw [bdsUpdateLoop, this, ht, h5]
    simp

/-- The instance of height 0 is done first. -/
theorem run_zero (ctx : TreeCtx H p skSeed pubSeed layer tree N) (ha : IsSub a layer tree) (h5 : p.insts = 5) (ht : p.tree_height = 5)
    {s : BdsState} (sh : Shape p s) (h0 : IsNew s 0) (hr : ∀ i < 5, IsNew s i ∨ IsDone s i) (k used : Nat) :
    ∃ s', bdsUpdateLoop H p skSeed pubSeed a (k + 1) s used = bdsUpdateLoop H p skSeed pubSeed a k s' (used + 1) ∧ Shape p s' ∧
      s'.stackoffset = s.stackoffset ∧ s'.leaves = s.leaves + 1 ∧ IsDone s' 0 ∧ ∀ i, 0 < i → s'.treehash[i]? = s.treehash[i]? := by
  obtain ⟨l1, e1, _⟩ := low_or (p := p) (hr 1 (by omega)) (by omega)
  obtain ⟨l2, e2, _⟩ := low_or (p := p) (hr 2 (by omega)) (by omega)
  obtain ⟨l3, e3, _⟩ := low_or (p := p) (hr 3 (by omega)) (by omega)
  obtain ⟨l4, e4, _⟩ := low_or (p := p) (hr 4 (by omega)) (by omega)
  have hp := pick5 (p := p) h5 ht h0.low e1 e2 e3 e4
  simp at hp
  obtain ⟨t, h1, h2, h3, h4, h6⟩ := h0
  obtain ⟨nd, hn, e⟩ := upd_leaf (s := s) ctx ha h1 h3 h4
  have htl := (List.getElem?_eq_some_iff.mp h1).1
  obtain ⟨b1, b2, b3, b4, b5⟩ := sh.insts_mem t (List.mem_of_getElem? h1)
  refine ⟨{ s with treehash := s.treehash.set 0 { t with node := nd, completed := 1, stackusage := 0 }, leaves := s.leaves + 1 },
    by rw [bdsUpdateLoop, hp]; simp only [Option.bind_eq_bind, Option.bind_some]; rw [if_neg (by omega), e]; rfl,
    { sh with insts_len := by simpa using sh.insts_len, insts_mem := forall_mem_set sh.insts_mem ⟨b1, b2, by simp, by simp, hn⟩ },
    rfl, rfl, ⟨_, List.getElem?_set_self htl, by simp⟩, ?_⟩
  intro i hi
  simp only
  rw [List.getElem?_set_ne (by omega)]

/-- Then that of height 1. -/
theorem run_one (ctx : TreeCtx H p skSeed pubSeed layer tree N) (ha : IsSub a layer tree) (hH : ∀ x, (H x).length = p.n)
    (h5 : p.insts = 5) (ht : p.tree_height = 5)
    {s : BdsState} (sh : Shape p s) (hd0 : IsDone s 0) (h1 : IsNew s 1) (hr : ∀ i < 5, IsNew s i ∨ IsDone s i) (ho : s.stackoffset = 5)
    (k used : Nat) :
    ∃ s', bdsUpdateLoop H p skSeed pubSeed a (k + 2) s used = bdsUpdateLoop H p skSeed pubSeed a k s' (used + 2) ∧ Shape p s' ∧
      s'.stackoffset = 5 ∧ s'.leaves = s.leaves + 2 ∧ IsDone s' 1 ∧ ∀ i, i ≠ 1 → s'.treehash[i]? = s.treehash[i]? := by
  obtain ⟨l2, e2, g2⟩ := low_or (p := p) (hr 2 (by omega)) (by omega)
  obtain ⟨l3, e3, g3⟩ := low_or (p := p) (hr 3 (by omega)) (by omega)
  obtain ⟨l4, e4, g4⟩ := low_or (p := p) (hr 4 (by omega)) (by omega)
  have hp := pick5 (p := p) h5 ht hd0.low h1.low e2 e3 e4
  rw [ht] at hp
  simp only [lt_irrefl, if_false, show (1 : Nat) < 5 by omega, if_true, show ¬ l2 < 1 by omega, show ¬ l3 < 1 by omega,
    show ¬ l4 < 1 by omega] at hp
  obtain ⟨t, h1, h2, h3, h4, h6⟩ := h1
  have hsl := sh.stack_len
  have hll := sh.levels_len
  obtain ⟨nd, hn, e⟩ := upd_push (s := s) ctx ha h1 (by omega) h4 (by omega) (by omega)
  obtain ⟨s1, hs1⟩ : ∃ s1 : BdsState, s1 = { s with
        stack := s.stack.set s.stackoffset nd
        stacklevels := s.stacklevels.set s.stackoffset 0
        stackoffset := s.stackoffset + 1
        treehash := s.treehash.set 1 { t with stackusage := 1, nextIdx := t.nextIdx + 1 }
        leaves := s.leaves + 1 } := ⟨_, rfl⟩
  rw [← hs1] at e
  have htl := (List.getElem?_eq_some_iff.mp h1).1
  obtain ⟨b1, b2, b3, b4, b5⟩ := sh.insts_mem t (List.mem_of_getElem? h1)
  have sh1 : Shape p s1 := by
    rw [hs1]
    exact { sh with
      stack_len := by simpa using sh.stack_len
      stack_mem := forall_mem_set sh.stack_mem hn
      levels_len := by simpa using sh.levels_len
      levels_mem := forall_mem_set sh.levels_mem (by omega)
      insts_len := by simpa using sh.insts_len
      insts_mem := forall_mem_set sh.insts_mem ⟨b1, by simp; omega, by simp, b4, b5⟩
      off_lt := by simp [ho] }
  have o1 : s1.stackoffset = 6 := by rw [hs1]; simp [ho]
  have ht1 : s1.treehash[1]? = some { t with stackusage := 1, nextIdx := t.nextIdx + 1 } := by
    rw [hs1]; exact List.getElem?_set_self htl
  have hfr : ∀ i, i ≠ 1 → s1.treehash[i]? = s.treehash[i]? := by
    intro i hi; rw [hs1]; simp only; rw [List.getElem?_set_ne (by omega)]
  have hl1 : s1.stacklevels[s1.stackoffset - 1]? = some 0 := by
    rw [o1, hs1]; simp only [ho]; exact List.getElem?_set_self (by omega)
  have lowfr : ∀ i, i ≠ 1 → (IsNew s i ∨ IsDone s i) → (IsNew s1 i ∨ IsDone s1 i) := by
    intro i hi h
    unfold IsNew IsDone at h ⊢
    rw [hfr i hi]
    exact h
  obtain ⟨l0', f0, q0⟩ : ∃ l, lowOf p s1 0 = some l ∧ 5 ≤ l := by
    refine ⟨_, IsDone.low (p := p) ?_, by omega⟩
    unfold IsDone; rw [hfr 0 (by omega)]; exact hd0
  obtain ⟨l2', f2, q2⟩ := low_or (p := p) (lowfr 2 (by omega) (hr 2 (by omega))) (by omega)
  obtain ⟨l3', f3, q3⟩ := low_or (p := p) (lowfr 3 (by omega) (hr 3 (by omega))) (by omega)
  obtain ⟨l4', f4, q4⟩ := low_or (p := p) (lowfr 4 (by omega) (hr 4 (by omega))) (by omega)
  have f1 : lowOf p s1 1 = some 0 := low_one ht1 h2 rfl (by omega) hl1 (by omega)
  have hp1 := pick5 (p := p) h5 ht f0 f1 f2 f3 f4
  simp only [show ¬ l0' < 5 by omega, if_false, show (0 : Nat) < 5 by omega, if_true, Nat.not_lt_zero] at hp1
  obtain ⟨nd', hn', e'⟩ := upd_merge1 (s := s1) (skSeed := skSeed) (pubSeed := pubSeed) (a := a) hH ht1 h3 rfl (by omega)
    (by rw [o1, sh1.stack_len, ht]) hl1
  have htl1 := (List.getElem?_eq_some_iff.mp ht1).1
  refine ⟨{ s1 with
        stackoffset := s1.stackoffset - 1
        treehash := s1.treehash.set 1 { t with node := nd', nextIdx := t.nextIdx + 1, completed := 1, stackusage := 0 }
        leaves := s1.leaves + 1 }, ?_, ?_, by simp [o1], by simp [hs1], ⟨_, List.getElem?_set_self htl1, by simp⟩, ?_⟩
  · rw [bdsUpdateLoop, hp]
    simp only [Option.bind_eq_bind, Option.bind_some]
    rw [if_neg (by omega), e]
    simp only [Option.bind_some]
    rw [bdsUpdateLoop, hp1]
    simp only [Option.bind_eq_bind, Option.bind_some]
    rw [if_neg (by omega), e']
    rfl
  · exact { sh1 with
      insts_len := by simpa using sh1.insts_len
      insts_mem := forall_mem_set sh1.insts_mem ⟨b1, by simp; omega, by simp, by simp, hn'⟩
      off_lt := by simp [o1] }
  · intro i hi
    simp only
    rw [List.getElem?_set_ne (by omega), hfr i hi]

/-- The instance of height 2 leaves the stack. -/
theorem run_two (ctx : TreeCtx H p skSeed pubSeed layer tree N) (ha : IsSub a layer tree) (hH : ∀ x, (H x).length = p.n)
    (h5 : p.insts = 5) (ht : p.tree_height = 5)
    {s : BdsState} (sh : Shape p s) (hd : ∀ i < 5, i ≠ 2 → IsDone s i) (h1 : IsNew s 2) (ho : s.stackoffset = 5)
    (k used : Nat) : bdsUpdateLoop H p skSeed pubSeed a (k + 3) s used = none := by
  have hp := pick5 (p := p) h5 ht (hd 0 (by omega) (by omega)).low (hd 1 (by omega) (by omega)).low h1.low
    (hd 3 (by omega) (by omega)).low (hd 4 (by omega) (by omega)).low
  rw [ht] at hp
  simp at hp
  obtain ⟨t, h1, h2, h3, h4, h6⟩ := h1
  have hsl := sh.stack_len
  have hll := sh.levels_len
  obtain ⟨nd, hn, e⟩ := upd_push (s := s) ctx ha h1 (by omega) h4 (by omega) (by omega)
  obtain ⟨s1, hs1⟩ : ∃ s1 : BdsState, s1 = { s with
        stack := s.stack.set s.stackoffset nd
        stacklevels := s.stacklevels.set s.stackoffset 0
        stackoffset := s.stackoffset + 1
        treehash := s.treehash.set 2 { t with stackusage := 1, nextIdx := t.nextIdx + 1 }
        leaves := s.leaves + 1 } := ⟨_, rfl⟩
  rw [← hs1] at e
  have htl := (List.getElem?_eq_some_iff.mp h1).1
  have o1 : s1.stackoffset = 6 := by rw [hs1]; simp [ho]
  have k1 : s1.stack.length = 6 := by rw [hs1]; simp; omega
  have k1' : s1.stacklevels.length = 6 := by rw [hs1]; simp; omega
  have ht1 : s1.treehash[2]? = some { t with stackusage := 1, nextIdx := t.nextIdx + 1 } := by
    rw [hs1]; exact List.getElem?_set_self htl
  have hfr : ∀ i, i ≠ 2 → s1.treehash[i]? = s.treehash[i]? := by
    intro i hi; rw [hs1]; simp only; rw [List.getElem?_set_ne (by omega)]
  have hl1 : s1.stacklevels[s1.stackoffset - 1]? = some 0 := by
    rw [o1, hs1]; simp only [ho]; exact List.getElem?_set_self (by omega)
  have d1 : ∀ i < 5, i ≠ 2 → IsDone s1 i := by
    intro i hi h; unfold IsDone; rw [hfr i h]; exact hd i hi h
  have f1 : lowOf p s1 2 = some 0 := low_one ht1 h2 rfl (by omega) hl1 (by omega)
  have hp1 := pick5 (p := p) h5 ht (d1 0 (by omega) (by omega)).low (d1 1 (by omega) (by omega)).low f1
    (d1 3 (by omega) (by omega)).low (d1 4 (by omega) (by omega)).low
  rw [ht] at hp1
  simp at hp1
  obtain ⟨nd', hn', e'⟩ := upd_merge2 (s := s1) (skSeed := skSeed) (pubSeed := pubSeed) (a := a) hH ht1 (by simp [h3]) rfl (by omega)
    (by omega) hl1
  obtain ⟨s2, hs2⟩ : ∃ s2 : BdsState, s2 = { s1 with
        stack := s1.stack.set (s1.stackoffset - 1) nd'
        stacklevels := s1.stacklevels.set (s1.stackoffset - 1) 1
        treehash := s1.treehash.set 2 { t with stackusage := 1, nextIdx := t.nextIdx + 1 + 1 }
        leaves := s1.leaves + 1 } := ⟨_, rfl⟩
  simp only at e'
  rw [← hs2] at e'
  have htl1 := (List.getElem?_eq_some_iff.mp ht1).1
  have o2 : s2.stackoffset = 6 := by rw [hs2]; exact o1
  have k2 : s2.stack.length = 6 := by rw [hs2]; simpa using k1
  have ht2 : s2.treehash[2]? = some { t with stackusage := 1, nextIdx := t.nextIdx + 1 + 1 } := by
    rw [hs2]; exact List.getElem?_set_self htl1
  have hfr2 : ∀ i, i ≠ 2 → s2.treehash[i]? = s1.treehash[i]? := by
    intro i hi; rw [hs2]; simp only; rw [List.getElem?_set_ne (by omega)]
  have hl2 : s2.stacklevels[s2.stackoffset - 1]? = some 1 := by
    rw [o2, hs2]; simp only [o1]; exact List.getElem?_set_self (by omega)
  have d2 : ∀ i < 5, i ≠ 2 → IsDone s2 i := by
    intro i hi h; unfold IsDone; rw [hfr2 i h]; exact d1 i hi h
  have f2 : lowOf p s2 2 = some 1 := low_one ht2 h2 rfl (by omega) hl2 (by omega)
  have hp2 := pick5 (p := p) h5 ht (d2 0 (by omega) (by omega)).low (d2 1 (by omega) (by omega)).low f2
    (d2 3 (by omega) (by omega)).low (d2 4 (by omega) (by omega)).low
  rw [ht] at hp2
  simp at hp2
  have e'' := upd_overflow (H := H) (p := p) (s := s2) (skSeed := skSeed) (pubSeed := pubSeed) (a := a) ht2 (by simp [h3]) rfl (by omega) (by omega) hl2
  rw [bdsUpdateLoop, hp]
  simp only [Option.bind_eq_bind, Option.bind_some]
  rw [if_neg (by omega), e]
  simp only [Option.bind_some]
  rw [bdsUpdateLoop, hp1]
  simp only [Option.bind_eq_bind, Option.bind_some]
  rw [if_neg (by omega), e']
  simp only [Option.bind_some]
  rw [bdsUpdateLoop, hp2]
  simp only [Option.bind_eq_bind, Option.bind_some]
  rw [if_neg (by omega), e'']
  rfl

end

/-! ### One signature with an unfinished tree in layer 3 -/

/-- The current tree of layer 3 after an unfinished tree took over: five useless nodes on the stack. -/
def BadC (p : Params) (x : Option Bytes) (_i t : Nat) (A : Nat → Nat) (cur : BdsState) : Prop :=
  Shape p cur ∧ cur.stackoffset = 5 ∧ (∀ j < 5, IsDone cur j) ∧ AllDone 5 A ∧ (t = 2 ^ 20 → ∀ y, x = some y → cur.auth[4]? = some y)

theorem picks_one {q : Nat → Nat} (h0 : q 0 = 0) (h : ∀ i < 5, 0 < i → q i = 2 ^ i) : ∃ A', Picks 5 1 q A' ∧ AllDone 5 A' := by
  refine ⟨bump q 0, Picks.succ ⟨by omega, by omega, Or.inl ⟨h0, by omega, fun j _ _ _ => one_dvd _⟩⟩ (Picks.zero _), ?_⟩
  intro i hi
  unfold bump
  by_cases hi0 : i = 0
  · subst hi0; simp [h0]
  · rw [if_neg hi0]; exact h i hi (by omega)

theorem picks_three {q : Nat → Nat} (h0 : q 0 = 0) (h1 : q 1 = 0) (h : ∀ i < 5, 1 < i → q i = 2 ^ i) : ∃ A', Picks 5 3 q A' ∧ AllDone 5 A' := by
  refine ⟨bump (bump (bump q 0) 1) 1, ?_, ?_⟩
  · refine Picks.succ (c := 0) ⟨by omega, by omega, Or.inl ⟨h0, by omega, fun j _ _ _ => one_dvd _⟩⟩ ?_
    refine Picks.succ (c := 1) ⟨by omega, by simp [bump, h1], Or.inl ⟨by simp [bump, h1], fun i hi => ?_, fun j hj h1j hlt => ?_⟩⟩ ?_
    · have : i = 0 := by omega
      subst this; simp [bump, h0]
    · exfalso
      have := h j hj h1j
      simp only [bump, if_neg (show ¬ j = 0 by omega)] at hlt
      omega
    · refine Picks.succ (c := 1) ⟨by omega, by simp [bump, h1], Or.inr ⟨by simp [bump, h1], fun i hi => ?_⟩⟩ (Picks.zero _)
      have : i = 0 := by omega
      subst this; left; simp [bump, h0]
  · intro i hi
    by_cases hi0 : i = 0
    · subst hi0; simp [bump, h0]
    · by_cases hi1 : i = 1
      · subst hi1; simp [bump, h1]
      · simp only [bump, if_neg hi0, if_neg hi1]; exact h i hi (by omega)

theorem tau_cases {φ tau m : Nat} (h : φ + 1 = 2 ^ tau * (2 * m + 1)) :
    (tau = 0 ∧ (φ + 1) % 2 = 1) ∨ (tau = 1 ∧ (φ + 1) % 4 = 2) ∨ (tau = 2 ∧ (φ + 1) % 8 = 4) ∨ (tau = 3 ∧ (φ + 1) % 16 = 8) ∨
      (4 ≤ tau ∧ (φ + 1) % 16 = 0) := by
  rcases Nat.lt_or_ge tau 4 with h4 | h4
  · obtain rfl | rfl | rfl | rfl : tau = 0 ∨ tau = 1 ∨ tau = 2 ∨ tau = 3 := by omega
    · left; omega
    · right; left; omega
    · right; right; left; omega
    · right; right; right; left; omega
  · right; right; right; right
    refine ⟨h4, ?_⟩
    rw [h, show tau = 4 + (tau - 4) by omega, pow_add, mul_assoc]
    omega

theorem bad_leaf {idx : Nat} (h1 : 2 ^ 20 ≤ idx) (h2 : idx < 2 ^ 20 + 2 ^ 18) (hB : B 5 3 ∣ idx + 1) :
    leafAt 5 idx 3 < 8 ∧ idx = 2 ^ 20 + 2 ^ 15 * leafAt 5 idx 3 + (2 ^ 15 - 1) := by
  unfold leafAt
  have e : B 5 3 = 32768 := by decide
  rw [e] at hB ⊢
  omega

/-- After the round. -/
theorem bad_round (f : FastMt p) (ht : p.tree_height = 5) (hH : ∀ x, (H x).length = p.n) {skSeed pubSeed : Bytes} {x : Option Bytes} {idx : Nat}
    {A : Nat → Nat} {cur : BdsState} {a0 : Addr} (ha : IsSub a0 3 (idx / B p.tree_height (3 + 1))) (h1 : 2 ^ 20 ≤ idx)
    (h2 : idx < 2 ^ 20 + 2 ^ 18) (hB : B 5 3 ∣ idx + 1) (hc : BadC p x 3 idx A cur) :
    ∃ s1, bdsRound H p cur (leafAt 5 idx 3) skSeed pubSeed a0 = some s1 ∧ Shape p s1 ∧ s1.stackoffset = 5 ∧
      s1.leaves = cur.leaves + (if leafAt 5 idx 3 % 2 = 0 then 1 else 0) ∧
      ∀ j < 5, ((j + 1 ≤ 3 ∧ 2 ^ (j + 1) ∣ leafAt 5 idx 3 + 1) → IsNew s1 j) ∧ (¬ 2 ^ (j + 1) ∣ leafAt 5 idx 3 + 1 → IsDone s1 j) := by
  obtain ⟨sh, ho, hd, _, _⟩ := hc
  have g := f.good
  have hins := f.insts
  obtain ⟨hl8, _⟩ := bad_leaf h1 h2 hB
  have ctx := treeCtx_suite g hH skSeed pubSeed 3 (idx / B p.tree_height (3 + 1))
  obtain ⟨s1, e, sh1, -, -, o1, -, -, -, l1, tau, m, htau, hth⟩ := bdsRound_safe ctx hH g.th_lt (by rw [f.k]; omega) ha sh
    (φ := leafAt 5 idx 3) (by rw [ht]; omega)
  refine ⟨s1, e, sh1, by rw [o1, ho], l1, ?_⟩
  intro j hj
  obtain ⟨t, ht1, ht2⟩ := hd j hj
  have h3 := hth j t ht1
  have htc := tau_cases htau
  rw [hins, ht] at h3
  constructor
  · intro ⟨hj3, hdv⟩
    have hlt : j < tau := by
      obtain rfl | rfl | rfl : j = 0 ∨ j = 1 ∨ j = 2 := by omega
      all_goals omega
    have hb : leafAt 5 idx 3 + 1 + 3 * 2 ^ j < 2 ^ 5 := by
      obtain rfl | rfl | rfl : j = 0 ∨ j = 1 ∨ j = 2 := by omega
      all_goals omega
    rw [if_pos ⟨hlt, hj, hb⟩] at h3
    exact ⟨_, h3, rfl, rfl, rfl, by simp only; omega⟩
  · intro hdv
    have hlt : ¬ j < tau := by
      intro hlt
      apply hdv
      rw [htau]
      exact (pow_dvd_pow 2 (by omega)).trans (Dvd.intro _ rfl)
    rw [if_neg (fun h => hlt h.1)] at h3
    exact ⟨_, h3, ht2⟩

theorem badC_inner (f : FastMt p) (ht : p.tree_height = 5) (hH : ∀ x, (H x).length = p.n) {skSeed pubSeed : Bytes} {x : Option Bytes} {idx : Nat}
    {A : Nat → Nat} (h1 : 2 ^ 20 ≤ idx) (h2 : idx + 1 < 2 ^ 20 + 2 ^ 18) : InnerC H p skSeed pubSeed (BadC p x) idx 3 A := by
  intro upd cur a0 hsub hupd hc
  have hc' := hc
  obtain ⟨sh, ho, hd, hA, hx⟩ := hc
  have g := f.good
  have hins : p.insts = 5 := by rw [f.insts, ht]
  have ctx := treeCtx_suite g hH skSeed pubSeed 3 (idx / B p.tree_height (3 + 1))
  rw [hins, ht] at hupd
  rw [ht]
  by_cases hB : B 5 3 ∣ idx + 1
  · have hl := bad_leaf h1 (by omega) hB
    obtain ⟨s1, e1, sh1, o1, l1, hin⟩ := bad_round f ht hH (skSeed := skSeed) (pubSeed := pubSeed) hsub h1 (by omega) hB hc'
    have hu : upd = 2 ^ 32 - 1 := hupd hB
    clear hupd
    have hlt : leafAt 5 idx 3 + 1 < 8 := by omega
    have hnot : ∀ y, idx + 1 = 2 ^ 20 → y := fun y h => by omega
    have all : (∀ j < 5, IsNew s1 j ∨ IsDone s1 j) := by
      intro j hj
      by_cases hdv : 2 ^ (j + 1) ∣ leafAt 5 idx 3 + 1
      · left
        refine (hin j hj).1 ⟨?_, hdv⟩
        have h3 := Nat.le_of_dvd (by omega) hdv
        have h4 : j + 1 < 3 := (Nat.pow_lt_pow_iff_right (a := 2) (by omega)).mp (lt_of_le_of_lt h3 hlt)
        omega
      · exact Or.inr ((hin j hj).2 hdv)
    generalize leafAt 5 idx 3 = φ at *
    have hcase : φ % 2 = 0 ∨ (φ % 4 = 1 ∧ φ < 7) ∨ φ = 3 := by omega
    rcases hcase with hφ | ⟨hφ, hφ'⟩ | rfl
    · -- nothing restarted
      have hdone : ∀ j < 5, IsDone s1 j := by
        intro j hj
        refine (hin j hj).2 (fun hdv => ?_)
        have : 2 ∣ φ + 1 := (Dvd.intro_left (2 ^ j) (by rw [pow_succ])).trans hdv
        omega
      have hq : restart 5 5 (φ + 1) A = A := restart_odd (by omega)
      refine ⟨s1, A, 0, A, s1, fun _ => e1, fun h => absurd hB h, fun _ => hq.symm, fun h => absurd hB h, ?_, Picks.zero _, by omega,
        Or.inr hA, ⟨sh1, o1, hdone, hA, fun h => hnot _ h⟩, by omega, ?_⟩
      · rw [bdsTreehashUpdate, run_idle hins ht hdone]; rfl
      · rw [if_pos ⟨hB, hφ⟩]; split at l1 <;> omega
    · -- instance 0 restarted
      have n0 : IsNew s1 0 := (hin 0 (by omega)).1 ⟨by omega, by omega⟩
      have hd1 : ∀ j < 5, 0 < j → IsDone s1 j := by
        intro j hj h0
        refine (hin j hj).2 (fun hdv => ?_)
        have : 4 ∣ φ + 1 := (pow_dvd_pow 2 (show 2 ≤ j + 1 by omega)).trans hdv
        omega
      obtain ⟨s2, e2, sh2, o2, l2, d2, fr2⟩ := run_zero ctx hsub hins ht sh1 n0 all (2 ^ 32 - 2) 0
      have hdone : ∀ j < 5, IsDone s2 j := by
        intro j hj
        by_cases h0 : j = 0
        · subst h0; exact d2
        · obtain ⟨t, q1, q2⟩ := hd1 j hj (by omega)
          exact ⟨t, by rw [fr2 j (by omega)]; exact q1, q2⟩
      obtain ⟨A', pk, hA'⟩ := picks_one (q := restart 5 5 (φ + 1) A)
        (by rw [restart, if_pos ⟨by omega, by omega, by omega⟩])
        (by
          intro i hi h0
          rw [restart, if_neg, hA i hi]
          intro ⟨_, hdv, _⟩
          have : 4 ∣ φ + 1 := (pow_dvd_pow 2 (show 2 ≤ i + 1 by omega)).trans hdv
          omega)
      refine ⟨s1, _, 1, A', s2, fun _ => e1, fun h => absurd hB h, fun _ => rfl, fun h => absurd hB h, ?_, pk, by omega,
        Or.inr hA', ⟨sh2, by omega, hdone, hA', fun h => hnot _ h⟩, ?_, ?_⟩
      · rw [bdsTreehashUpdate, hu, show 2 ^ 32 - 1 = 2 ^ 32 - 2 + 1 by omega, e2, run_idle hins ht hdone]; rfl
      · rw [if_neg (by omega)] at l1; omega
      · rw [if_neg (by omega)] at l1; omega
    · -- instances 0 and 1 restarted
      have n0 : IsNew s1 0 := (hin 0 (by omega)).1 ⟨by omega, by omega⟩
      have n1 : IsNew s1 1 := (hin 1 (by omega)).1 ⟨by omega, by omega⟩
      have hd1 : ∀ j < 5, 1 < j → IsDone s1 j := by
        intro j hj h0
        refine (hin j hj).2 (fun hdv => ?_)
        have : 8 ∣ 3 + 1 := (pow_dvd_pow 2 (show 3 ≤ j + 1 by omega)).trans hdv
        omega
      obtain ⟨s2, e2, sh2, o2, l2, d2, fr2⟩ := run_zero ctx hsub hins ht sh1 n0 all (2 ^ 32 - 2) 0
      have n1' : IsNew s2 1 := by
        obtain ⟨t, q1, q2⟩ := n1
        exact ⟨t, by rw [fr2 1 (by omega)]; exact q1, q2⟩
      have all2 : ∀ j < 5, IsNew s2 j ∨ IsDone s2 j := by
        intro j hj
        by_cases h0 : j = 0
        · subst h0; exact Or.inr d2
        · have := all j hj
          unfold IsNew IsDone at this ⊢
          rw [fr2 j (by omega)]
          exact this
      obtain ⟨s3, e3, sh3, o3, l3, d3, fr3⟩ := run_one ctx hsub hH hins ht sh2 d2 n1' all2 (by omega) (2 ^ 32 - 4) (0 + 1)
      have hdone : ∀ j < 5, IsDone s3 j := by
        intro j hj
        by_cases h1 : j = 1
        · subst h1; exact d3
        · unfold IsDone
          rw [fr3 j h1]
          by_cases h0 : j = 0
          · subst h0; exact d2
          · rw [fr2 j (by omega)]; exact hd1 j hj (by omega)
      obtain ⟨A', pk, hA'⟩ := picks_three (q := restart 5 5 (3 + 1) A)
        (by rw [restart, if_pos ⟨by omega, by omega, by omega⟩])
        (by rw [restart, if_pos ⟨by omega, by omega, by omega⟩])
        (by
          intro i hi h0
          rw [restart, if_neg, hA i hi]
          intro ⟨_, hdv, _⟩
          have : 8 ∣ 3 + 1 := (pow_dvd_pow 2 (show 3 ≤ i + 1 by omega)).trans hdv
          omega)
      refine ⟨s1, _, 3, A', s3, fun _ => e1, fun h => absurd hB h, fun _ => rfl, fun h => absurd hB h, ?_, pk, by omega,
        Or.inr hA', ⟨sh3, o3, hdone, hA', fun h => hnot _ h⟩, ?_, ?_⟩
      · rw [bdsTreehashUpdate, hu, show 2 ^ 32 - 1 = 2 ^ 32 - 2 + 1 by omega, e2, show 2 ^ 32 - 2 = 2 ^ 32 - 4 + 2 by omega, e3,
          run_idle hins ht hdone]; rfl
      · rw [if_neg (by omega)] at l1; omega
      · rw [if_neg (by omega)] at l1; omega
  · refine ⟨cur, A, 0, A, cur, fun h => absurd h hB, fun _ => rfl, fun h => absurd h hB, fun _ => rfl, ?_, Picks.zero _, by omega,
      Or.inr hA, ⟨sh, ho, hd, hA, fun h => by omega⟩, by omega, by omega⟩
    rw [bdsTreehashUpdate, run_idle hins ht hd]; rfl

/-- The overflow. -/
theorem bad_overflow (f : FastMt p) (ht : p.tree_height = 5) (hH : ∀ x, (H x).length = p.n) {skSeed pubSeed : Bytes} {x : Option Bytes}
    {A : Nat → Nat} {cur : BdsState} {a0 : Addr} {idx : Nat} (hidx : idx = 2 ^ 20 + 2 ^ 18 - 1)
    (ha : IsSub a0 3 (idx / B p.tree_height (3 + 1))) (hc : BadC p x 3 idx A cur) :
    ∃ s1, bdsRound H p cur (leafAt 5 idx 3) skSeed pubSeed a0 = some s1 ∧
      bdsTreehashUpdate H p s1 (2 ^ 32 - 1) skSeed pubSeed a0 = none := by
  have g := f.good
  have hins : p.insts = 5 := by rw [f.insts, ht]
  have ctx := treeCtx_suite g hH skSeed pubSeed 3 (idx / B p.tree_height (3 + 1))
  have hB : B 5 3 ∣ idx + 1 := by rw [hidx]; decide
  obtain ⟨s1, e1, sh1, o1, l1, hin⟩ := bad_round f ht hH (skSeed := skSeed) (pubSeed := pubSeed) ha (by omega) (by omega) hB hc
  refine ⟨s1, e1, ?_⟩
  have hl : leafAt 5 idx 3 = 7 := by rw [hidx]; decide
  rw [hl] at hin
  have n0 : IsNew s1 0 := (hin 0 (by omega)).1 ⟨by omega, by omega⟩
  have n1 : IsNew s1 1 := (hin 1 (by omega)).1 ⟨by omega, by omega⟩
  have n2 : IsNew s1 2 := (hin 2 (by omega)).1 ⟨by omega, by omega⟩
  have d3 : IsDone s1 3 := (hin 3 (by omega)).2 (by omega)
  have d4 : IsDone s1 4 := (hin 4 (by omega)).2 (by omega)
  have all : ∀ j < 5, IsNew s1 j ∨ IsDone s1 j := by
    intro j hj
    obtain rfl | rfl | rfl | rfl | rfl : j = 0 ∨ j = 1 ∨ j = 2 ∨ j = 3 ∨ j = 4 := by omega
    exacts [Or.inl n0, Or.inl n1, Or.inl n2, Or.inr d3, Or.inr d4]
  obtain ⟨s2, e2, sh2, o2, l2, d2, fr2⟩ := run_zero ctx ha hins ht sh1 n0 all (2 ^ 32 - 2) 0
  have n1' : IsNew s2 1 := by
    obtain ⟨t, q1, q2⟩ := n1
    exact ⟨t, by rw [fr2 1 (by omega)]; exact q1, q2⟩
  have all2 : ∀ j < 5, IsNew s2 j ∨ IsDone s2 j := by
    intro j hj
    by_cases h0 : j = 0
    · subst h0; exact Or.inr d2
    · have := all j hj
      unfold IsNew IsDone at this ⊢
      rw [fr2 j (by omega)]
      exact this
  obtain ⟨s3, e3, sh3, o3, l3, d3', fr3⟩ := run_one ctx ha hH hins ht sh2 d2 n1' all2 (by omega) (2 ^ 32 - 4) (0 + 1)
  have hdone : ∀ j < 5, j ≠ 2 → IsDone s3 j := by
    intro j hj hj2
    by_cases h1 : j = 1
    · subst h1; exact d3'
    · unfold IsDone
      rw [fr3 j h1]
      by_cases h0 : j = 0
      · subst h0; exact d2
      · rw [fr2 j (by omega)]
        obtain rfl | rfl : j = 3 ∨ j = 4 := by omega
        exacts [d3, d4]
  have n2' : IsNew s3 2 := by
    unfold IsNew
    rw [fr3 2 (by omega), fr2 2 (by omega)]
    exact n2
  have e4 := run_two ctx ha hH hins ht sh3 hdone n2' o3 (2 ^ 32 - 7) (0 + 1 + 2)
  rw [bdsTreehashUpdate, show 2 ^ 32 - 1 = 2 ^ 32 - 2 + 1 by omega, e2, show 2 ^ 32 - 2 = 2 ^ 32 - 4 + 2 by omega, e3,
    show 2 ^ 32 - 4 = 2 ^ 32 - 7 + 3 by omega, e4]
  rfl

end Xmss
