import Verif.Proof.TraceFastRel
import Verif.Props.HashCalls
/-
Bounds on the number of hash calls of the fast implementation, on any state, in terms of the number of leaves it computes.
-/
namespace Xmss
open Tr Sched HashCalls
open Calls (rep)

variable {H : Bytes → Bytes} {p : Params}

/-- Height of the stack; 0 if it is out of bounds, as nothing can be merged then. -/
def phi (s : BdsState) : Nat := if s.stackoffset ≤ s.stack.length then s.stackoffset else 0

/-- From `s` to `s'` with calls `l` and `k` further tree hashes. -/
def Cost (p : Params) (k : Nat) (s s' : BdsState) (l : List Nat) : Prop :=
  s'.stack.length = s.stack.length ∧ ∃ n, s'.leaves = s.leaves + n ∧ n * leafCount p ≤ l.length ∧
    l.length + 4 * phi s' ≤ n * (leafCount p + 4) + 4 * phi s + 4 * k

theorem Cost.refl (s : BdsState) : Cost p 0 s s [] := ⟨rfl, 0, by simp, by simp, by simp⟩

theorem Cost.trans {k k' : Nat} {s s1 s2 : BdsState} {l l' : List Nat} (h : Cost p k s s1 l) (h' : Cost p k' s1 s2 l') :
    Cost p (k + k') s s2 (l ++ l') := by
  obtain ⟨a, n, b, c, d⟩ := h
  obtain ⟨a', n', b', c', d'⟩ := h'
  refine ⟨by rw [a', a], n + n', by omega, ?_, ?_⟩
  · rw [Nat.add_mul, List.length_append]; omega
  · rw [Nat.add_mul, List.length_append]; omega

theorem Cost.mono {k k' : Nat} {s s1 : BdsState} {l : List Nat} (h : Cost p k s s1 l) (hk : k ≤ k') : Cost p k' s s1 l := by
  obtain ⟨a, n, b, c, d⟩ := h
  exact ⟨a, n, b, c, by omega⟩

theorem Cost.congr {k : Nat} {s s0 s1 s2 : BdsState} {l : List Nat} (h : Cost p k s s1 l) (e1 : s0.stack.length = s.stack.length)
    (e2 : s0.stackoffset = s.stackoffset) (e3 : s0.leaves = s.leaves) (f1 : s2.stack.length = s1.stack.length)
    (f2 : s2.stackoffset = s1.stackoffset) (f3 : s2.leaves = s1.leaves) : Cost p k s0 s2 l := by
  obtain ⟨a, n, b, c, d⟩ := h
  refine ⟨by omega, n, by omega, c, ?_⟩
  unfold phi at d ⊢
  rw [f1, f2, e1, e2]
  exact d

theorem h_length : (Calls.h p).length = 4 := by simp [Calls.h, Calls.prf]

theorem mergeLoopT_cost (ps : Bytes) (idx : Nat) : ∀ (fuel : Nat) (s : BdsState) (a : Addr) (r : BdsState × Addr) (l : List Nat),
    mergeLoopT H p ps idx fuel s a = mk r l →
    r.1.stack.length = s.stack.length ∧ r.1.leaves = s.leaves ∧ r.1.stackoffset ≤ s.stackoffset ∧
      l.length + 4 * r.1.stackoffset = 4 * s.stackoffset
  | 0, s, a, r, l, hr => by
    obtain ⟨rfl, rfl⟩ := pure_inv hr
    exact ⟨rfl, rfl, le_rfl, by simp⟩
  | fuel + 1, s, a, r, l, hr => by
    rw [mergeLoopT] at hr
    by_cases h1 : s.stackoffset ≤ 1
    · rw [if_pos h1] at hr
      obtain ⟨rfl, rfl⟩ := pure_inv hr
      exact ⟨rfl, rfl, le_rfl, by simp⟩
    · rw [if_neg h1] at hr
      obtain ⟨l1, hg1, hr⟩ := opt_inv hr
      obtain ⟨l2, hg2, hr⟩ := opt_inv hr
      by_cases h2 : l1 = l2
      · rw [if_neg (by simpa using h2)] at hr
        obtain ⟨top, ht, hr⟩ := opt_inv hr
        obtain ⟨s1, hsn, hr⟩ := opt_inv hr
        obtain ⟨q1, q2, q3, q4⟩ := storeNode_keeps hsn
        obtain ⟨left, hl, hr⟩ := opt_inv hr
        rw [thashHT_eq] at hr
        obtain ⟨l', hr', rfl⟩ := mk_inv hr
        obtain ⟨st, hst, hr⟩ := opt_inv hr'
        obtain ⟨lv, hlv, hr⟩ := opt_inv hr
        obtain ⟨_, rfl⟩ := setA_inv hst
        obtain ⟨c1, c2, c3, c4⟩ := mergeLoopT_cost ps idx fuel _ _ _ _ hr
        simp only [List.length_set] at c1 c2 c3 c4
        refine ⟨by rw [c1, q3], by rw [c2, q4], by omega, ?_⟩
        rw [List.length_append, h_length]
        omega
      · rw [if_pos h2] at hr
        obtain ⟨rfl, rfl⟩ := pure_inv hr
        exact ⟨rfl, rfl, le_rfl, by simp⟩

theorem addLeafT_cost {sk ps : Bytes} {idx : Nat} {s : BdsState} {a o n : Addr} {r : BdsState × Addr × Addr × Addr} {l : List Nat}
    (h : addLeafT H p sk ps idx s a o n = mk r l) : Cost p 0 s r.1 l := by
  rw [addLeafT, genLeafWotsT_eq] at h
  obtain ⟨l', h1, rfl⟩ := mk_inv h
  obtain ⟨st, hst, h1⟩ := opt_inv h1
  obtain ⟨lv, hlv, h1⟩ := opt_inv h1
  obtain ⟨hlt, rfl⟩ := setA_inv hst
  obtain ⟨s1, hs1, h1⟩ := opt_inv h1
  obtain ⟨q, l1, l2, hq, hp, rfl⟩ := bind_inv h1
  obtain ⟨rfl, rfl⟩ := pure_inv hp
  have e1 : s1.stackoffset = s.stackoffset + 1 ∧ s1.leaves = s.leaves + 1 ∧ s1.stack.length = s.stack.length := by
    split at hs1
    · obtain ⟨x, _, hs1⟩ := Option.bind_eq_some_iff.mp hs1
      obtain ⟨y, _, hs1⟩ := Option.bind_eq_some_iff.mp hs1
      cases hs1
      simp
    · cases hs1
      simp
  obtain ⟨c1, c2, c3, c4⟩ := mergeLoopT_cost ps idx _ _ _ _ _ hq
  refine ⟨by simp only; omega, 1, by simp only; omega, ?_, ?_⟩
  · simp only [List.length_append, leaf_length]; omega
  · simp only [List.length_append, leaf_length, phi, List.length_nil]
    rw [if_pos (by omega), if_pos (by omega)]
    omega

theorem bdsStateUpdateT_cost {sk ps : Bytes} {s s' : BdsState} {a : Addr} {l : List Nat} (h : bdsStateUpdateT H p s sk ps a = mk s' l) :
    Cost p 0 s s' l := by
  rw [bdsStateUpdateT] at h
  split at h
  · obtain ⟨rfl, rfl⟩ := pure_inv h
    exact Cost.refl s
  · obtain ⟨r, l1, l2, hr, hp, rfl⟩ := bind_inv h
    obtain ⟨rfl, rfl⟩ := pure_inv hp
    rw [List.append_nil]
    exact (addLeafT_cost hr).congr rfl rfl rfl rfl rfl rfl

theorem updateMergeT_cost (ps : Bytes) (s : BdsState) (ni : Nat) : ∀ (su so nh : Nat) (x : Bytes) (a : Addr) (r : Nat × Nat × Nat × Bytes)
    (l : List Nat), updateMergeT H p ps s ni su so nh x a = mk r l →
    r.2.1 ≤ so ∧ l.length + 4 * r.2.1 = 4 * so ∧ (r.2.1 < so → so ≤ s.stack.length)
  | 0, so, nh, x, a, r, l, h => by
    rw [updateMergeT] at h
    obtain ⟨rfl, rfl⟩ := pure_inv h
    exact ⟨le_rfl, by simp, fun h => by simp at h⟩
  | su + 1, so, nh, x, a, r, l, h => by
    rw [updateMergeT] at h
    split at h
    · cases h
    · obtain ⟨lv, _, h⟩ := opt_inv h
      split at h
      · obtain ⟨left, hl, h⟩ := opt_inv h
        rw [thashHT_eq] at h
        obtain ⟨l', h', rfl⟩ := mk_inv h
        obtain ⟨c1, c2, c3⟩ := updateMergeT_cost ps s ni su _ _ _ _ _ _ h'
        have hlt := (List.getElem?_eq_some_iff.mp hl).1
        refine ⟨by omega, ?_, fun _ => by omega⟩
        rw [List.length_append, h_length]
        omega
      · obtain ⟨rfl, rfl⟩ := pure_inv h
        exact ⟨le_rfl, by simp, fun h => by simp at h⟩

theorem treehashUpdateT_cost {sk ps : Bytes} {s s' : BdsState} {lvl : Nat} {a : Addr} {l : List Nat}
    (h : treehashUpdateT H p s lvl sk ps a = mk s' l) : Cost p 0 s s' l ∧ s'.leaves = s.leaves + 1 := by
  rw [treehashUpdateT] at h
  obtain ⟨t, _, h⟩ := opt_inv h
  rw [genLeafWotsT_eq] at h
  obtain ⟨l', h1, rfl⟩ := mk_inv h
  obtain ⟨r, l1, l2, hr, h2, rfl⟩ := bind_inv h1
  obtain ⟨c1, c2, c3⟩ := updateMergeT_cost ps s _ _ _ _ _ _ _ _ hr
  split at h2
  · obtain ⟨rfl, rfl⟩ := pure_inv h2
    refine ⟨⟨rfl, 1, rfl, ?_, ?_⟩, rfl⟩
    · simp only [List.length_append, leaf_length]; omega
    · simp only [List.length_append, leaf_length, phi, List.length_nil]
      by_cases hc : s.stackoffset ≤ s.stack.length
      · rw [if_pos hc, if_pos (by omega)]; omega
      · have : r.2.1 = s.stackoffset := by
          by_contra hne
          have := c3 (by omega)
          omega
        rw [if_neg hc, if_neg (by omega)]
        omega
  · obtain ⟨st, hst, h2⟩ := opt_inv h2
    obtain ⟨lv, _, h2⟩ := opt_inv h2
    obtain ⟨hlt, rfl⟩ := setA_inv hst
    obtain ⟨rfl, rfl⟩ := pure_inv h2
    refine ⟨⟨by simp, 1, rfl, ?_, ?_⟩, rfl⟩
    · simp only [List.length_append, leaf_length]; omega
    · simp only [List.length_append, leaf_length, phi, List.length_nil, List.length_set]
      have hc : s.stackoffset ≤ s.stack.length := by
        by_contra hc
        have : r.2.1 = s.stackoffset := by
          by_contra hne
          have := c3 (by omega)
          omega
        omega
      rw [if_pos hc, if_pos (by omega)]
      omega

theorem bdsUpdateLoopT_cost (sk ps : Bytes) (a : Addr) : ∀ (j : Nat) (s : BdsState) (u : Nat) (r : BdsState × Nat) (l : List Nat),
    bdsUpdateLoopT H p sk ps a j s u = mk r l → Cost p 0 s r.1 l ∧ r.1.leaves ≤ s.leaves + j
  | 0, s, u, r, l, h => by
    rw [bdsUpdateLoopT] at h
    obtain ⟨rfl, rfl⟩ := pure_inv h
    exact ⟨Cost.refl s, le_rfl⟩
  | j + 1, s, u, r, l, h => by
    rw [bdsUpdateLoopT] at h
    obtain ⟨lv, _, h⟩ := opt_inv h
    split at h
    · obtain ⟨rfl, rfl⟩ := pure_inv h
      exact ⟨Cost.refl s, Nat.le_add_right _ _⟩
    · obtain ⟨s1, l1, l2, h1, h2, rfl⟩ := bind_inv h
      obtain ⟨a1, a2⟩ := treehashUpdateT_cost h1
      obtain ⟨b1, b2⟩ := bdsUpdateLoopT_cost sk ps a j s1 (u + 1) r l2 h2
      exact ⟨a1.trans b1, by omega⟩

theorem bdsTreehashUpdateT_cost {sk ps : Bytes} {a : Addr} {u : Nat} {s : BdsState} {r : BdsState × Nat} {l : List Nat}
    (h : bdsTreehashUpdateT H p s u sk ps a = mk r l) : Cost p 0 s r.1 l ∧ r.1.leaves ≤ s.leaves + u := by
  rw [bdsTreehashUpdateT] at h
  obtain ⟨q, l1, l2, h1, h2, rfl⟩ := bind_inv h
  obtain ⟨rfl, rfl⟩ := pure_inv h2
  rw [List.append_nil]
  exact bdsUpdateLoopT_cost sk ps a u s 0 q l1 h1

theorem authLoop_keep (φ : Nat) : ∀ (k i : Nat) (s s' : BdsState), authLoop p φ k i s = some s' →
    s'.stack = s.stack ∧ s'.stackoffset = s.stackoffset ∧ s'.leaves = s.leaves
  | 0, _, s, s', h => by cases h; exact ⟨rfl, rfl, rfl⟩
  | k + 1, i, s, s', h => by
    rw [authLoop] at h
    obtain ⟨x, _, h⟩ := Option.bind_eq_some_iff.mp h
    obtain ⟨y, _, h⟩ := Option.bind_eq_some_iff.mp h
    have key := authLoop_keep φ k (i + 1) _ _ h
    exact key

theorem restartLoop_keep (φ : Nat) : ∀ (k i : Nat) (s s' : BdsState), restartLoop p φ k i s = some s' →
    s'.stack = s.stack ∧ s'.stackoffset = s.stackoffset ∧ s'.leaves = s.leaves
  | 0, _, s, s', h => by cases h; exact ⟨rfl, rfl, rfl⟩
  | k + 1, i, s, s', h => by
    rw [restartLoop] at h
    obtain ⟨x, hx, h⟩ := Option.bind_eq_some_iff.mp h
    have key := restartLoop_keep φ k (i + 1) _ _ h
    split at hx
    · obtain ⟨t, _, hx⟩ := Option.bind_eq_some_iff.mp hx
      cases hx
      exact key
    · cases hx
      exact key

theorem bdsRoundT_cost {sk ps : Bytes} {φ : Nat} {s s' : BdsState} {a : Addr} {l : List Nat} (h : bdsRoundT H p s φ sk ps a = mk s' l) :
    Cost p 1 s s' l ∧ s'.leaves ≤ s.leaves + 1 := by
  rw [bdsRoundT] at h
  obtain ⟨buf, _, h⟩ := opt_inv h
  obtain ⟨s1, hs1, h⟩ := opt_inv h
  have e1 : s1.stack = s.stack ∧ s1.stackoffset = s.stackoffset ∧ s1.leaves = s.leaves := by
    split at hs1
    · obtain ⟨x, _, hs1⟩ := Option.bind_eq_some_iff.mp hs1
      obtain ⟨y, _, hs1⟩ := Option.bind_eq_some_iff.mp hs1
      cases hs1
      exact ⟨rfl, rfl, rfl⟩
    · cases hs1
      exact ⟨rfl, rfl, rfl⟩
  obtain ⟨q1, q2, q3⟩ := e1
  split at h
  · rw [genLeafWotsT_eq] at h
    obtain ⟨l', h1, rfl⟩ := mk_inv h
    obtain ⟨au, _, h1⟩ := opt_inv h1
    obtain ⟨rfl, rfl⟩ := pure_inv h1
    refine ⟨⟨by simp only [q1], 1, by simp only [q3], ?_, ?_⟩, by simp only [q3]; omega⟩
    · simp only [List.length_append, leaf_length]; omega
    · simp only [List.length_append, leaf_length, phi, List.length_nil, q1, q2]; omega
  · rw [thashHT_eq] at h
    obtain ⟨l', h1, rfl⟩ := mk_inv h
    obtain ⟨au, _, h1⟩ := opt_inv h1
    obtain ⟨s2, hs2, h1⟩ := opt_inv h1
    obtain ⟨hs3, rfl⟩ := opt_end h1
    obtain ⟨a1, a2, a3⟩ := authLoop_keep _ _ _ _ _ hs2
    obtain ⟨b1, b2, b3⟩ := restartLoop_keep _ _ _ _ _ hs3
    refine ⟨⟨by rw [b1, a1, q1], 0, by rw [b3, a3, q3]; rfl, by simp, ?_⟩, by rw [b3, a3, q3]; omega⟩
    simp only [List.length_append, h_length, phi, List.length_nil, b1, b2, a1, a2, q1, q2]
    omega

/-- The traversal of the single-tree implementation. -/
theorem xmssTraverseT_cost {sk ps : Bytes} {idx : Nat} {s s' : BdsState} {a : Addr} {l : List Nat}
    (h : xmssTraverseT H p sk ps idx s a = mk s' l) : Cost p 1 s s' l ∧ s'.leaves ≤ s.leaves + (p.insts / 2 + 1) := by
  rw [xmssTraverseT] at h
  split at h
  · obtain ⟨s1, l1, l2, h1, h2, rfl⟩ := bind_inv h
    obtain ⟨r, l3, l4, h3, h4, rfl⟩ := bind_inv h2
    obtain ⟨rfl, rfl⟩ := pure_inv h4
    obtain ⟨a1, a2⟩ := bdsRoundT_cost h1
    obtain ⟨b1, b2⟩ := bdsTreehashUpdateT_cost h3
    rw [Nat.shiftRight_eq_div_pow, pow_one] at b2
    rw [List.append_nil]
    exact ⟨a1.trans b1, by omega⟩
  · obtain ⟨rfl, rfl⟩ := pure_inv h
    exact ⟨(Cost.refl s).mono (by omega), by omega⟩

/-! ### Several trees -/

/-- Number of hash calls of a WOTS signature, at most. -/
def wotsMax (p : Params) : Nat := p.wots_len + 3 * (p.wots_len * (p.wots_w - 1))

theorem wotsCalls_le (g : p.Good) (M : Bytes) : (wotsCalls p H M).length ≤ wotsMax p := by
  have := digits_sum (H := H) g M
  simp only [wotsCalls, List.length_append, rep_length, Calls.gen, Calls.f, Calls.prf, List.length_cons, List.length_nil, wotsMax]
  omega

/-- Height of all stacks together. -/
def Phi (st : List BdsState) : Nat := (st.map phi).sum

theorem Phi_set {l : List BdsState} {i : Nat} {x y : BdsState} (h : l[i]? = some x) : Phi (l.set i y) + phi x = Phi l + phi y := by
  unfold Phi
  induction l generalizing i with
  | nil => cases h
  | cons a l ih =>
    cases i with
    | zero =>
      rw [List.getElem?_cons_zero, Option.some.injEq] at h
      subst h
      simp only [List.set_cons_zero, List.map_cons, List.sum_cons]
      omega
    | succ i =>
      rw [List.getElem?_cons_succ] at h
      have := ih h
      simp only [List.set_cons_succ, List.map_cons, List.sum_cons]
      omega

/-- From `st` to `st'` with calls `l`, `k` further calls allowed. -/
def MtCost (p : Params) (k : Nat) (st st' : List BdsState) (l : List Nat) : Prop :=
  ∃ n, totalLeaves st' = totalLeaves st + n ∧ n * leafCount p ≤ l.length ∧
    l.length + 4 * Phi st' ≤ n * (leafCount p + 4) + 4 * Phi st + k

theorem MtCost.refl (st : List BdsState) : MtCost p 0 st st [] := ⟨0, by simp, by simp, by simp⟩

theorem MtCost.trans {k k' : Nat} {s s1 s2 : List BdsState} {l l' : List Nat} (h : MtCost p k s s1 l) (h' : MtCost p k' s1 s2 l') :
    MtCost p (k + k') s s2 (l ++ l') := by
  obtain ⟨n, b, c, d⟩ := h
  obtain ⟨n', b', c', d'⟩ := h'
  refine ⟨n + n', by omega, ?_, ?_⟩
  · rw [Nat.add_mul, List.length_append]; omega
  · rw [Nat.add_mul, List.length_append]; omega

theorem MtCost.mono {k k' : Nat} {s s1 : List BdsState} {l : List Nat} (h : MtCost p k s s1 l) (hk : k ≤ k') : MtCost p k' s s1 l := by
  obtain ⟨n, b, c, d⟩ := h
  exact ⟨n, b, c, by omega⟩

theorem Cost.set {k : Nat} {st : List BdsState} {i : Nat} {s s' : BdsState} {l : List Nat} (h : Cost p k s s' l) (hs : st[i]? = some s) :
    MtCost p (4 * k) st (st.set i s') l := by
  obtain ⟨_, n, b, c, d⟩ := h
  have h1 := Phi_set (y := s') hs
  have h2 := totalLeaves_set (y := s') hs
  exact ⟨n, by omega, c, by omega⟩

theorem mtStepInnerT_cost {sk ps : Bytes} {idx i : Nat} {v w : MtLocals} {l : List Nat}
    (h : mtStepInnerT H p sk ps idx i v = mk w l) : MtCost p 4 v.states w.states l := by
  rw [mtStepInnerT] at h
  simp only at h
  obtain ⟨s, hs, h⟩ := opt_inv h
  obtain ⟨s1, l1, l2, h1, h2, rfl⟩ := bind_inv h
  obtain ⟨r, l3, l4, h3, h4, rfl⟩ := bind_inv h2
  have c1 : Cost p 1 s s1 l1 := by
    split at h1
    · exact (bdsRoundT_cost h1).1
    · obtain ⟨rfl, rfl⟩ := pure_inv h1
      exact (Cost.refl s).mono (by omega)
  have c2 := (c1.trans (bdsTreehashUpdateT_cost h3).1).set hs
  rw [← List.append_assoc]
  split at h4
  · obtain ⟨nx, hnx, h4⟩ := opt_inv h4
    split at h4
    · obtain ⟨n2, l5, l6, h5, h6, rfl⟩ := bind_inv h4
      obtain ⟨rfl, rfl⟩ := pure_inv h6
      have c3 := (bdsStateUpdateT_cost h5).set hnx
      rw [List.append_nil]
      exact c2.trans c3
    · obtain ⟨rfl, rfl⟩ := pure_inv h4
      rw [List.append_nil]
      exact c2
  · obtain ⟨rfl, rfl⟩ := pure_inv h4
    rw [List.append_nil]
    exact c2

theorem mtStepSwapT_cost (g : p.Good) {sk ps : Bytes} {idx i : Nat} {v w : MtLocals} {l : List Nat} (hd : 0 < p.d)
    (sh : LenExt p v.states v.sigs) (h : mtStepSwapT H p sk ps idx i v = mk w l) : MtCost p (wotsMax p) v.states w.states l := by
  rw [mtStepSwapT] at h
  simp only at h
  obtain ⟨sts, hsts, h⟩ := opt_inv h
  obtain ⟨cur, hcur, h⟩ := opt_inv h
  obtain ⟨root, hroot, h⟩ := opt_inv h
  rw [swapStates] at hsts
  obtain ⟨x, hx, hsts⟩ := Option.bind_eq_some_iff.mp hsts
  obtain ⟨y, hy, hsts⟩ := Option.bind_eq_some_iff.mp hsts
  cases hsts
  have hil := (List.getElem?_eq_some_iff.mp hx).1
  have hjl := (List.getElem?_eq_some_iff.mp hy).1
  have e1 : ((v.states.set i y).set (p.d + i) x)[i]? = some y := by
    rw [List.getElem?_set_ne (by omega), List.getElem?_set_self hil]
  have e2 : ((v.states.set i y).set (p.d + i) x)[p.d + i]? = some x := by
    rw [List.getElem?_set_self (by rw [List.length_set]; omega)]
  rw [e1, Option.some.injEq] at hcur
  subst hcur
  have hm := (sh.states_mem _ (List.mem_of_getElem? hy)).stack_mem _ (List.mem_of_getElem? hroot)
  rw [wotsSignT_eq g hm] at h
  obtain ⟨l', h1, rfl⟩ := mk_inv h
  obtain ⟨sg, _, h1⟩ := opt_inv h1
  obtain ⟨nx, hnx, h1⟩ := opt_inv h1
  rw [e2, Option.some.injEq] at hnx
  subst hnx
  obtain ⟨rfl, rfl⟩ := pure_inv h1
  have hw : (rep p.wots_len (Calls.gen p) ++ rep ((suiteOf p H).wotsDigits root).sum (Calls.f p)).length ≤ wotsMax p := wotsCalls_le g root
  have hy' : (v.states.set i y)[p.d + i]? = some y := by rw [List.getElem?_set_ne (by omega)]; exact hy
  have p1 := Phi_set (y := y) hx
  have p2 := Phi_set (y := x) hy'
  have p3 := Phi_set (y := { x with stackoffset := 0, nextLeaf := 0 }) e2
  have e3 : (((v.states.set i y).set (p.d + i) x).set (p.d + i) { x with stackoffset := 0, nextLeaf := 0 })[i]? = some y := by
    rw [List.getElem?_set_ne (by omega)]; exact e1
  have p4 := Phi_set (y := { y with treehash := y.treehash.map (fun t => { t with completed := 1 }) }) e3
  have t1 := totalLeaves_set (y := y) hx
  have t2 := totalLeaves_set (y := x) hy'
  have t3 := totalLeaves_set (y := { x with stackoffset := 0, nextLeaf := 0 }) e2
  have t4 := totalLeaves_set (y := { y with treehash := y.treehash.map (fun t => { t with completed := 1 }) }) e3
  have z1 : phi { x with stackoffset := 0, nextLeaf := 0 } = 0 := by simp [phi]
  have z2 : phi { y with treehash := y.treehash.map (fun t => { t with completed := 1 }) } = phi y := rfl
  simp only at t3 t4
  refine ⟨0, ?_, by simp, ?_⟩
  · simp only; omega
  · simp only [List.append_nil]; omega

theorem mtStepT_cost (g : p.Good) {sk ps : Bytes} {idx i : Nat} {v w : MtLocals} {l : List Nat} (hd : 0 < p.d)
    (sh : LenExt p v.states v.sigs) (h : mtStepT H p sk ps idx i v = mk w l) : MtCost p (wotsMax p + 4) v.states w.states l := by
  rw [mtStepT] at h
  split at h
  · exact (mtStepInnerT_cost h).mono (by omega)
  · split at h
    · exact (mtStepSwapT_cost g hd sh h).mono (by omega)
    · obtain ⟨rfl, rfl⟩ := pure_inv h
      exact (MtCost.refl _).mono (by omega)

theorem mtLoopT_cost (g : p.Good) (hH : ∀ x, (H x).length = p.n) (hd : 0 < p.d) (sk ps : Bytes) (idx : Nat) :
    ∀ (k i : Nat) (v w : MtLocals) (l : List Nat), LenExt p v.states v.sigs → v.otsAddr.a3 = UInt32.ofNat 0 →
      mtLoopT H p sk ps idx k i v = mk w l → MtCost p (k * (wotsMax p + 4)) v.states w.states l
  | 0, i, v, w, l, _, _, h => by
    rw [mtLoopT] at h
    obtain ⟨rfl, rfl⟩ := pure_inv h
    rw [Nat.zero_mul]
    exact MtCost.refl _
  | k + 1, i, v, w, l, sh, ho, h => by
    rw [mtLoopT] at h
    obtain ⟨v1, l1, l2, h1, h2, rfl⟩ := bind_inv h
    have hv : mtStep H p sk ps idx i v = some v1 := by rw [← mtStepT_val, h1]; rfl
    obtain ⟨a1, a2⟩ := mtStep_len g hH sh ho hv
    have c2 := mtLoopT_cost g hH hd sk ps idx k (i + 1) v1 w l2 a1 a2 h2
    rw [Nat.add_mul, Nat.one_mul, Nat.add_comm]
    exact (mtStepT_cost g hd sh h1).trans c2

theorem mtTraverseT_cost (g : p.Good) (hH : ∀ x, (H x).length = p.n) {sk ps : Bytes} {idx : Nat} {st : List BdsState} {sg : List Bytes}
    {oa : Addr} {v : MtLocals} {l : List Nat} (sh : LenExt p st sg) (ho : oa.a3 = UInt32.ofNat 0)
    (h : mtTraverseT H p sk ps idx st sg oa = mk v l) : MtCost p (p.d * (wotsMax p + 4)) st v.states l := by
  rw [mtTraverseT] at h
  obtain ⟨s1, l1, l2, h1, h2, rfl⟩ := bind_inv h
  have hh : MtCost p 0 st s1 l1 ∧ LenExt p s1 sg := by
    split at h1
    · obtain ⟨nx, hnx, h1⟩ := opt_inv h1
      obtain ⟨n2, l3, l4, h3, h4, rfl⟩ := bind_inv h1
      obtain ⟨rfl, rfl⟩ := pure_inv h4
      rw [List.append_nil]
      refine ⟨(bdsStateUpdateT_cost h3).set hnx, ?_⟩
      have hv : bdsStateUpdate H p nx sk ps (setTreeAddr Addr.zero ((idx >>> p.tree_height) + 1)) = some n2 := by
        rw [← bdsStateUpdateT_val, h3]; rfl
      exact sh.set (bdsStateUpdate_len g hH (sh.states_mem _ (List.mem_of_getElem? hnx)) hv)
    · obtain ⟨rfl, rfl⟩ := pure_inv h1
      exact ⟨MtCost.refl _, sh⟩
  have := hh.1.trans (mtLoopT_cost g hH g.d_pos sk ps idx p.d 0 _ _ _ hh.2 ho h2)
  rwa [Nat.zero_add] at this

theorem Phi_le {m : Nat} : ∀ st : List BdsState, (∀ s ∈ st, s.stack.length = m) → Phi st ≤ st.length * m
  | [], _ => by simp [Phi]
  | s :: st, h => by
    have h1 := Phi_le st fun t ht => h t (by simp [ht])
    have h2 : phi s ≤ m := by
      unfold phi
      rw [h s (by simp)]
      split <;> omega
    unfold Phi at h1 ⊢
    rw [List.map_cons, List.sum_cons, List.length_cons, Nat.add_mul]
    omega

end Xmss
