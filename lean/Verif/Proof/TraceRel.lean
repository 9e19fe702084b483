import Verif.Proof.TraceFast
import Verif.Proof.FastAny
/-
Two runs of the fast implementation, with any two hash functions, keys and messages, side by side: which way they go and
which hash calls they make depends on the control fields of the traversal states only, and these evolve alike.
-/
namespace Xmss
open Tr

/-! ### Two computations side by side -/

section
variable {α β γ δ : Type}

/-- Both undefined, or both defined with related values and, if `c`, equal records. -/
def RelR (c : Prop) (R : α → β → Prop) (t : Tr α) (u : Tr β) : Prop :=
  (t = Tr.fail ∧ u = Tr.fail) ∨ ∃ a l b l', t = Tr.mk a l ∧ u = Tr.mk b l' ∧ R a b ∧ (c → l = l')

/-- Both undefined, or both defined with related values. -/
def OptR (R : α → β → Prop) (t : Option α) (u : Option β) : Prop :=
  (t = none ∧ u = none) ∨ ∃ a b, t = some a ∧ u = some b ∧ R a b

theorem OptR.some {R : α → β → Prop} {a : α} {b : β} (h : R a b) : OptR R (some a) (some b) := Or.inr ⟨a, b, rfl, rfl, h⟩
theorem OptR.none {R : α → β → Prop} : OptR R none none := Or.inl ⟨rfl, rfl⟩
theorem OptR.bind {R : α → β → Prop} {S : γ → δ → Prop} {o : Option α} {o' : Option β} {f : α → Option γ} {g : β → Option δ}
    (h : OptR R o o') (hf : ∀ a b, o = Option.some a → o' = Option.some b → R a b → OptR S (f a) (g b)) : OptR S (o.bind f) (o'.bind g) := by
  rcases h with ⟨rfl, rfl⟩ | ⟨a, b, rfl, rfl, h⟩
  · exact OptR.none
  · exact hf a b rfl rfl h
theorem OptR.mono {R S : α → β → Prop} {o : Option α} {o' : Option β} (h : OptR R o o')
    (hm : ∀ a b, o = Option.some a → o' = Option.some b → R a b → S a b) : OptR S o o' := by
  rcases h with h | ⟨a, b, ha, hb, h⟩
  · exact Or.inl h
  · exact Or.inr ⟨a, b, ha, hb, hm a b ha hb h⟩

variable {c : Prop}

theorem RelR.mk {R : α → β → Prop} {a : α} {b : β} {l l' : List Nat} (h : R a b) (hl : c → l = l') :
    RelR c R (Tr.mk a l) (Tr.mk b l') := Or.inr ⟨a, l, b, l', rfl, rfl, h, hl⟩
theorem RelR.pure {R : α → β → Prop} {a : α} {b : β} (h : R a b) : RelR c R (Pure.pure a : Tr α) (Pure.pure b : Tr β) :=
  RelR.mk h fun _ => rfl
theorem RelR.opt {R : α → β → Prop} {o : Option α} {o' : Option β} (h : OptR R o o') : RelR c R (Tr.opt o) (Tr.opt o') := by
  rcases h with ⟨rfl, rfl⟩ | ⟨a, b, rfl, rfl, h⟩
  · exact Or.inl ⟨rfl, rfl⟩
  · exact RelR.mk h fun _ => rfl
theorem RelR.bindV {R : α → β → Prop} {S : γ → δ → Prop} {t : Tr α} {u : Tr β} {f : α → Tr γ} {g : β → Tr δ}
    (h : RelR c R t u) (hf : ∀ a b, val t = some a → val u = some b → R a b → RelR c S (f a) (g b)) :
    RelR c S (t >>= f) (u >>= g) := by
  rcases h with ⟨rfl, rfl⟩ | ⟨a, l, b, l', rfl, rfl, h, hl⟩
  · exact Or.inl ⟨rfl, rfl⟩
  · rw [Tr.bind_mk, Tr.bind_mk]
    rcases hf a b rfl rfl h with ⟨e, e'⟩ | ⟨a', k, b', k', e, e', h', hk⟩
    · rw [e, e']; exact Or.inl ⟨rfl, rfl⟩
    · rw [e, e', Tr.tell_mk, Tr.tell_mk]
      exact RelR.mk h' fun hc => by rw [hl hc, hk hc]
theorem RelR.bind {R : α → β → Prop} {S : γ → δ → Prop} {t : Tr α} {u : Tr β} {f : α → Tr γ} {g : β → Tr δ}
    (h : RelR c R t u) (hf : ∀ a b, R a b → RelR c S (f a) (g b)) : RelR c S (t >>= f) (u >>= g) :=
  h.bindV fun a b _ _ hr => hf a b hr
theorem RelR.bindO {R : α → β → Prop} {S : γ → δ → Prop} {o : Option α} {o' : Option β} {f : α → Tr γ} {g : β → Tr δ}
    (h : OptR R o o') (hf : ∀ a b, o = some a → o' = some b → R a b → RelR c S (f a) (g b)) :
    RelR c S (Tr.opt o >>= f) (Tr.opt o' >>= g) :=
  (RelR.opt h).bindV fun a b ha hb hr => hf a b (by rwa [val_opt] at ha) (by rwa [val_opt] at hb) hr
theorem RelR.fail {R : α → β → Prop} : RelR c R (Tr.opt none) (Tr.opt none) := Or.inl ⟨rfl, rfl⟩
theorem RelR.mono {R S : α → β → Prop} {t : Tr α} {u : Tr β} (h : RelR c R t u)
    (hm : ∀ a b, val t = some a → val u = some b → R a b → S a b) : RelR c S t u := by
  rcases h with h | ⟨a, l, b, l', rfl, rfl, h, hl⟩
  · exact Or.inl h
  · exact RelR.mk (hm a b rfl rfl h) hl
theorem RelR.ite {R : α → β → Prop} {q q' : Prop} [Decidable q] [Decidable q'] {t t' : Tr α} {u u' : Tr β} (hq : q ↔ q')
    (h : q → RelR c R t u) (h' : ¬ q → RelR c R t' u') : RelR c R (if q then t else t') (if q' then u else u') := by
  by_cases e : q
  · rw [if_pos e, if_pos (hq.mp e)]; exact h e
  · rw [if_neg e, if_neg (fun x => e (hq.mpr x))]; exact h' e
theorem OptR.ite {R : α → β → Prop} {q q' : Prop} [Decidable q] [Decidable q'] {t t' : Option α} {u u' : Option β} (hq : q ↔ q')
    (h : q → OptR R t u) (h' : ¬ q → OptR R t' u') : OptR R (if q then t else t') (if q' then u else u') := by
  by_cases e : q
  · rw [if_pos e, if_pos (hq.mp e)]; exact h e
  · rw [if_neg e, if_neg (fun x => e (hq.mpr x))]; exact h' e

theorem optR_get {l : List α} {l' : List β} (h : l.length = l'.length) (i : Nat) : OptR (fun _ _ => True) l[i]? l'[i]? := by
  by_cases hi : i < l.length
  · rw [List.getElem?_eq_getElem hi, List.getElem?_eq_getElem (by omega)]
    exact OptR.some trivial
  · rw [List.getElem?_eq_none (by omega), List.getElem?_eq_none (by omega)]
    exact OptR.none

theorem optR_setA {l : List α} {l' : List β} (h : l.length = l'.length) (i : Nat) (x : α) (y : β) :
    OptR (fun a b => a = l.set i x ∧ b = l'.set i y ∧ i < l.length) (setA l i x) (setA l' i y) := by
  unfold setA
  exact OptR.ite (by rw [h]) (fun hi => OptR.some ⟨rfl, rfl, hi⟩) fun _ => OptR.none

theorem optR_eq {o o' : Option α} (h : o = o') : OptR (fun a b => a = b) o o' := by
  subst h
  cases o with
  | none => exact OptR.none
  | some a => exact OptR.some rfl
end

/-! ### The control fields of a state -/

/-- Two instances: one is finished when the other is, and unfinished ones stand at the same place. -/
def InstRel (t t' : TreehashInst) : Prop :=
  (t.completed = 0 ↔ t'.completed = 0) ∧
    (t.completed = 0 → t.h = t'.h ∧ t.nextIdx = t'.nextIdx ∧ t.stackusage = t'.stackusage) ∧ t.completed < 256 ∧ t'.completed < 256

/-- Two states with the same control fields; the instances only if `b`. -/
structure CtlP (b : Prop) (s s' : BdsState) : Prop where
  so : s.stackoffset = s'.stackoffset
  lv : ∀ i < s.stackoffset, s.stacklevels[i]? = s'.stacklevels[i]?
  stack_len : s.stack.length = s'.stack.length
  levels_len : s.stacklevels.length = s'.stacklevels.length
  auth_len : s.auth.length = s'.auth.length
  keep_len : s.keep.length = s'.keep.length
  insts_len : s.treehash.length = s'.treehash.length
  retain_len : s.retain.length = s'.retain.length
  next : s.nextLeaf = s'.nextLeaf
  insts : b → ∀ (i : Nat) (t t' : TreehashInst), s.treehash[i]? = some t → s'.treehash[i]? = some t' → InstRel t t'

variable {H H' : Bytes → Bytes} {p : Params} {b c : Prop} {s s' : BdsState}

theorem CtlP.set_node (h : CtlP b s s') {i : Nat} {t t' : TreehashInst} (ht : s.treehash[i]? = some t) (ht' : s'.treehash[i]? = some t')
    (x x' : Bytes) : CtlP b { s with treehash := s.treehash.set i { t with node := x } }
      { s' with treehash := s'.treehash.set i { t' with node := x' } } :=
  { h with
    insts_len := by simpa using h.insts_len
    insts := fun hb j u u' hu hu' => by
      simp only [List.getElem?_set] at hu hu'
      have hl := h.insts_len
      by_cases e : i = j
      · rw [if_pos e] at hu hu'
        split at hu <;> simp only [reduceCtorEq, Option.some.injEq] at hu
        split at hu' <;> simp only [reduceCtorEq, Option.some.injEq] at hu'
        subst hu hu'
        exact h.insts hb i t t' ht ht'
      · rw [if_neg e] at hu hu'
        exact h.insts hb j u u' hu hu' }

theorem storeNode_rel (h : CtlP b s s') (idx nh : Nat) (x x' : Bytes) : OptR (CtlP b) (storeNode p s idx nh x) (storeNode p s' idx nh x') := by
  unfold storeNode
  refine OptR.ite Iff.rfl (fun _ => ?_) fun _ => OptR.ite Iff.rfl (fun _ => ?_) fun _ => OptR.ite Iff.rfl (fun _ => ?_) fun _ => OptR.some h
  · refine (optR_setA h.auth_len nh x x').bind fun a b _ _ hr => OptR.some ?_
    exact { h with auth_len := by simp [hr.1, hr.2.1, h.auth_len] }
  · refine (optR_get h.insts_len nh).bind fun t t' ht ht' _ => OptR.some ?_
    exact h.set_node ht ht' x x'
  · refine (optR_setA h.retain_len _ x x').bind fun a b _ _ hr => OptR.some ?_
    exact { h with retain_len := by simp [hr.1, hr.2.1, h.retain_len] }

theorem storeNode_keeps {s1 : BdsState} {idx nh : Nat} {x : Bytes} (h : storeNode p s idx nh x = some s1) :
    s1.stackoffset = s.stackoffset ∧ s1.stacklevels = s.stacklevels ∧ s1.stack = s.stack ∧ s1.leaves = s.leaves := by
  unfold storeNode at h
  split at h
  · obtain ⟨a, _, h⟩ := Option.bind_eq_some_iff.mp h
    cases h; exact ⟨rfl, rfl, rfl, rfl⟩
  · split at h
    · obtain ⟨a, _, h⟩ := Option.bind_eq_some_iff.mp h
      cases h; exact ⟨rfl, rfl, rfl, rfl⟩
    · split at h
      · obtain ⟨a, _, h⟩ := Option.bind_eq_some_iff.mp h
        cases h; exact ⟨rfl, rfl, rfl, rfl⟩
      · cases h; exact ⟨rfl, rfl, rfl, rfl⟩

theorem lv_set {α : Type} {l l' : List α} {k i : Nat} {x : α} (hl : l.length = l'.length) (h : ∀ j < k, l[j]? = l'[j]?)
    (hk : i ≤ k) : ∀ j < i + 1, (l.set i x)[j]? = (l'.set i x)[j]? := by
  intro j hj
  simp only [List.getElem?_set, hl]
  by_cases e : i = j
  · rw [if_pos e, if_pos e]
  · rw [if_neg e, if_neg e]
    exact h j (by omega)

theorem mergeLoop_rel (ps ps' : Bytes) (idx : Nat) : ∀ (fuel : Nat) (s s' : BdsState) (a a' : Addr), CtlP b s s' →
    RelR c (fun r r' => CtlP b r.1 r'.1) (mergeLoopT H p ps idx fuel s a) (mergeLoopT H' p ps' idx fuel s' a')
  | 0, s, s', a, a', h => RelR.pure h
  | fuel + 1, s, s', a, a', h => by
    rw [mergeLoopT, mergeLoopT]
    refine RelR.ite (by rw [h.so]) (fun _ => RelR.pure h) fun h1 => ?_
    refine RelR.bindO (R := Eq) (optR_eq (by rw [h.lv _ (by omega), h.so])) fun l1 k1 hl1 hk1 e1 => ?_
    subst e1
    refine RelR.bindO (R := Eq) (optR_eq (by rw [h.lv _ (by omega), h.so])) fun l2 k2 hl2 hk2 e2 => ?_
    subst e2
    refine RelR.ite Iff.rfl (fun _ => RelR.pure h) fun h2 => ?_
    have hso := h.so
    rw [← hso]
    refine RelR.bindO (optR_get h.stack_len _) fun x x' _ _ _ => ?_
    refine RelR.bindO (storeNode_rel h idx l1 x x') fun s1 s1' hs hs' h3 => ?_
    obtain ⟨k1, k2, k3, _⟩ := storeNode_keeps hs
    rw [← h3.so]
    refine RelR.bindO (optR_get h3.stack_len _) fun y y' _ _ _ => ?_
    rw [thashHT_eq, thashHT_eq]
    refine RelR.bind (R := fun _ _ => True) (RelR.mk trivial fun _ => rfl) fun r r' _ => ?_
    refine RelR.bindO (optR_setA h3.stack_len _ _ _) fun st st' _ _ hst => ?_
    refine RelR.bindO (optR_setA h3.levels_len _ _ _) fun lv lv' _ _ hlv => ?_
    apply mergeLoop_rel ps ps' idx fuel
    exact { h3 with
      so := rfl
      lv := by
        rw [hlv.1, hlv.2.1]
        intro i hi
        have := lv_set (i := s1.stackoffset - 2) (x := l2 + 1) h3.levels_len h3.lv (by omega)
        exact this i (by simp only [] at hi; omega)
      stack_len := by simp [hst.1, hst.2.1, h3.stack_len]
      levels_len := by simp [hlv.1, hlv.2.1, h3.levels_len] }

theorem addLeaf_rel (h : CtlP b s s') (sk ps sk' ps' : Bytes) (idx : Nat) (l o n l' o' n' : Addr) :
    RelR c (fun r r' => CtlP b r.1 r'.1) (addLeafT H p sk ps idx s l o n) (addLeafT H' p sk' ps' idx s' l' o' n') := by
  rw [addLeafT, addLeafT, genLeafWotsT_eq, genLeafWotsT_eq]
  refine RelR.bind (R := fun _ _ => True) (RelR.mk trivial fun _ => rfl) fun g g' _ => ?_
  have hso := h.so
  rw [← hso]
  refine RelR.bindO (optR_setA h.stack_len _ _ _) fun st st' _ _ hst => ?_
  refine RelR.bindO (optR_setA h.levels_len _ _ _) fun lv lv' _ _ hlv => ?_
  have h1 : CtlP b { s with stack := st, stacklevels := lv, stackoffset := s.stackoffset + 1, leaves := s.leaves + 1 }
      { s' with stack := st', stacklevels := lv', stackoffset := s.stackoffset + 1, leaves := s'.leaves + 1 } :=
    { h with
      so := rfl
      lv := by
        rw [hlv.1, hlv.2.1]
        exact lv_set h.levels_len h.lv le_rfl
      stack_len := by simp [hst.1, hst.2.1, h.stack_len]
      levels_len := by simp [hlv.1, hlv.2.1, h.levels_len] }
  refine RelR.bindO (R := CtlP b) ?_ fun s1 s1' _ _ h2 => ?_
  · refine OptR.ite Iff.rfl (fun _ => ?_) fun _ => OptR.some h1
    refine (optR_get h1.stack_len _).bind fun x x' _ _ _ => (optR_get h1.insts_len 0).bind fun t t' ht ht' _ => OptR.some ?_
    exact h1.set_node ht ht' x x'
  · rw [← h2.so]
    exact (mergeLoop_rel ps ps' idx _ _ _ _ _ h2).bind fun r r' hr => RelR.pure hr

theorem addLeaves_rel (sk ps sk' ps' : Bytes) : ∀ (k idx : Nat) (s s' : BdsState) (l o n l' o' n' : Addr), CtlP b s s' →
    RelR c (CtlP b) (addLeavesT H p sk ps k idx s l o n) (addLeavesT H' p sk' ps' k idx s' l' o' n')
  | 0, _, _, _, _, _, _, _, _, _, h => RelR.pure h
  | k + 1, idx, s, s', l, o, n, l', o', n', h => by
    rw [addLeavesT, addLeavesT]
    exact (addLeaf_rel h _ _ _ _ _ _ _ _ _ _ _).bind fun r r' hr => addLeaves_rel sk ps sk' ps' k _ _ _ _ _ _ _ _ _ hr

theorem resetInsts_len' : ∀ (i : Nat) (l : List TreehashInst), (resetInsts i l).length = l.length
  | _, [] => rfl
  | i, _ :: l => by rw [resetInsts, List.length_cons, List.length_cons, resetInsts_len' (i + 1) l]

theorem resetInsts_completed : ∀ (i : Nat) (l : List TreehashInst) (t : TreehashInst), t ∈ resetInsts i l → t.completed = 1
  | _, [], _, h => by simp [resetInsts] at h
  | i, u :: l, t, h => by
    rw [resetInsts, List.mem_cons] at h
    rcases h with rfl | h
    · rfl
    · exact resetInsts_completed (i + 1) l t h

theorem InstRel.of_completed {t t' : TreehashInst} (h : t.completed = 1) (h' : t'.completed = 1) : InstRel t t' :=
  ⟨by rw [h, h'], fun e => by omega, by omega, by omega⟩

/-- After `treehash_init` everything that matters agrees, whatever the state was. -/
theorem treehashInit_rel (h : CtlP False s s') (sk ps sk' ps' : Bytes) (a a' : Addr) :
    RelR c (fun r r' => CtlP True r.2 r'.2) (treehashInitT H p s sk ps a) (treehashInitT H' p s' sk' ps' a') := by
  rw [treehashInitT, treehashInitT]
  refine (addLeaves_rel (b := True) _ _ _ _ _ _ _ _ _ _ _ _ _ _ ?_).bind fun w w' hw => ?_
  · exact { h with
      so := rfl
      lv := fun i hi => rfl
      stack_len := by simp
      levels_len := by simp
      insts_len := by simp [resetInsts_len', h.insts_len]
      insts := fun _ i t t' ht ht' => InstRel.of_completed (resetInsts_completed _ _ _ (List.mem_of_getElem? ht))
        (resetInsts_completed _ _ _ (List.mem_of_getElem? ht')) }
  · refine RelR.bindO (optR_get hw.stack_len 0) fun x x' _ _ _ => RelR.pure ?_
    exact { hw with
      so := h.so
      lv := h.lv
      stack_len := h.stack_len
      levels_len := h.levels_len }

/-! ### Updates of the instances -/

theorem updateMerge_rel (h : CtlP b s s') (ps ps' : Bytes) (ni : Nat) : ∀ (su so nh : Nat) (x x' : Bytes) (a a' : Addr),
    so ≤ s.stackoffset →
    RelR c (fun r r' => r.1 = r'.1 ∧ r.2.1 = r'.2.1 ∧ r.2.2.1 = r'.2.2.1 ∧ r.2.1 ≤ s.stackoffset)
      (updateMergeT H p ps s ni su so nh x a) (updateMergeT H' p ps' s' ni su so nh x' a')
  | 0, so, nh, x, x', a, a', hso => RelR.pure ⟨rfl, rfl, rfl, hso⟩
  | su + 1, so, nh, x, x', a, a', hso => by
    rw [updateMergeT, updateMergeT]
    refine RelR.ite Iff.rfl (fun _ => RelR.fail) fun h0 => ?_
    refine RelR.bindO (R := Eq) (optR_eq (h.lv _ (by omega))) fun l1 k1 _ _ e1 => ?_
    subst e1
    refine RelR.ite Iff.rfl (fun _ => ?_) fun _ => RelR.pure ⟨rfl, rfl, rfl, hso⟩
    refine RelR.bindO (optR_get h.stack_len _) fun y y' _ _ _ => ?_
    rw [thashHT_eq, thashHT_eq]
    refine RelR.bind (R := fun _ _ => True) (RelR.mk trivial fun _ => rfl) fun r r' _ => ?_
    exact updateMerge_rel h ps ps' ni su _ _ _ _ _ _ (by omega)

theorem CtlP.set_inst (h : CtlP b s s') {i : Nat} {t t' : TreehashInst} (ht : InstRel t t') :
    CtlP b { s with treehash := s.treehash.set i t } { s' with treehash := s'.treehash.set i t' } :=
  { h with
    insts_len := by simpa using h.insts_len
    insts := fun hb j u u' hu hu' => by
      simp only [List.getElem?_set] at hu hu'
      by_cases e : i = j
      · rw [if_pos e] at hu hu'
        split at hu <;> simp only [reduceCtorEq, Option.some.injEq] at hu
        split at hu' <;> simp only [reduceCtorEq, Option.some.injEq] at hu'
        subst hu hu'
        exact ht
      · rw [if_neg e] at hu hu'
        exact h.insts hb j u u' hu hu' }

theorem treehashUpdate_rel (h : CtlP True s s') (lvl : Nat) (hl : ∀ t, s.treehash[lvl]? = some t → t.completed = 0)
    (sk ps sk' ps' : Bytes) (a a' : Addr) :
    RelR c (CtlP True) (treehashUpdateT H p s lvl sk ps a) (treehashUpdateT H' p s' lvl sk' ps' a') := by
  rw [treehashUpdateT, treehashUpdateT]
  refine RelR.bindO (optR_get h.insts_len lvl) fun t t' ht ht' _ => ?_
  have hr := h.insts trivial lvl t t' ht ht'
  have h0 := hl t ht
  obtain ⟨e1, e2, e3⟩ := hr.2.1 h0
  rw [genLeafWotsT_eq, genLeafWotsT_eq]
  refine RelR.bind (R := fun _ _ => True) (RelR.mk trivial fun _ => rfl) fun g g' _ => ?_
  rw [← e2, ← e3, ← h.so]
  refine RelR.bind (updateMerge_rel h ps ps' _ _ _ _ _ _ _ _ le_rfl) fun r r' ⟨r1, r2, r3, r4⟩ => ?_
  refine RelR.ite (by rw [r3, e1]) (fun _ => RelR.pure ?_) fun _ => ?_
  · rw [← r2]
    have := h.set_inst (i := lvl) (t := { t with node := r.2.2.2, completed := 1, stackusage := r.1 })
      (t' := { t' with node := r'.2.2.2, completed := 1, stackusage := r'.1, nextIdx := t.nextIdx }) (InstRel.of_completed rfl rfl)
    exact { this with
      so := rfl
      lv := fun i hi => h.lv i (lt_of_lt_of_le hi r4) }
  · rw [← r2]
    refine RelR.bindO (optR_setA h.stack_len _ _ _) fun st st' _ _ hst => ?_
    refine RelR.bindO (optR_setA h.levels_len _ _ _) fun lv lv' _ _ hlv => RelR.pure ?_
    have := h.set_inst (i := lvl) (t := { t with stackusage := r.1 + 1, nextIdx := t.nextIdx + 1 })
      (t' := { t' with stackusage := r'.1 + 1, nextIdx := t.nextIdx + 1 })
      ⟨hr.1, fun _ => ⟨e1, rfl, by simp only [r1]⟩, hr.2.2⟩
    exact { this with
      so := rfl
      lv := by
        rw [hlv.1, hlv.2.1, ← r3]
        exact lv_set h.levels_len h.lv r4
      stack_len := by simp [hst.1, hst.2.1, h.stack_len]
      levels_len := by simp [hlv.1, hlv.2.1, h.levels_len] }

theorem minHeightLoop_rel (h : CtlP b s s') : ∀ (k i r : Nat), minHeightLoop s k i r = minHeightLoop s' k i r
  | 0, _, _ => rfl
  | k + 1, i, r => by
    rw [minHeightLoop, minHeightLoop, ← h.so]
    by_cases h0 : s.stackoffset < i + 1
    · rw [if_pos h0, if_pos h0]
    · rw [if_neg h0, if_neg h0, h.lv _ (by omega)]
      simp only [minHeightLoop_rel h k]

theorem lowOf_rel (h : CtlP True s s') (i : Nat) : lowOf p s i = lowOf p s' i := by
  unfold lowOf
  have := optR_get h.insts_len i
  rcases this with ⟨e, e'⟩ | ⟨t, t', e, e', _⟩
  · rw [e, e']; rfl
  · rw [e, e']
    have hr := h.insts trivial i t t' e e'
    simp only [Option.bind_eq_bind, Option.bind_some]
    by_cases h0 : t.completed = 0
    · obtain ⟨e1, e2, e3⟩ := hr.2.1 h0
      have h0' := hr.1.mp h0
      simp only [h0, h0', ne_eq, not_true_eq_false, if_false, e3, minHeightOnStack, minHeightLoop_rel h]
    · rw [if_pos h0, if_pos (fun x => h0 (hr.1.mpr x))]

theorem pickLoop_rel (h : CtlP True s s') : ∀ (k i level lmin : Nat), pickLoop p s k i level lmin = pickLoop p s' k i level lmin
  | 0, _, _, _ => rfl
  | k + 1, i, level, lmin => by
    simp only [pickLoop, lowOf_rel h, pickLoop_rel h k]

theorem pickLoop_sound : ∀ (k i level lmin r : Nat), lmin ≤ p.tree_height → pickLoop p s k i level lmin = some r →
    r = level ∨ ∃ t, s.treehash[r]? = some t ∧ t.completed = 0
  | 0, _, level, _, r, _, h => by
    simp only [pickLoop, Option.some.injEq] at h
    exact Or.inl h.symm
  | k + 1, i, level, lmin, r, hm, h => by
    rw [pickLoop] at h
    obtain ⟨low, hlow, h⟩ := Option.bind_eq_some_iff.mp h
    by_cases hl : low < lmin
    · rw [if_pos hl] at h
      rcases pickLoop_sound k (i + 1) i low r (by omega) h with e | e
      · right
        subst e
        unfold lowOf at hlow
        obtain ⟨t, ht, hlow⟩ := Option.bind_eq_some_iff.mp hlow
        refine ⟨t, ht, ?_⟩
        by_contra hc
        rw [if_pos hc] at hlow
        simp only [Option.some.injEq] at hlow
        omega
      · exact Or.inr e
    · rw [if_neg hl] at h
      exact pickLoop_sound k (i + 1) level lmin r hm h

theorem bdsUpdateLoop_rel (sk ps sk' ps' : Bytes) (a a' : Addr) : ∀ (j : Nat) (s s' : BdsState) (u : Nat), CtlP True s s' →
    RelR c (fun r r' => CtlP True r.1 r'.1 ∧ r.2 = r'.2) (bdsUpdateLoopT H p sk ps a j s u) (bdsUpdateLoopT H' p sk' ps' a' j s' u)
  | 0, _, _, _, h => RelR.pure ⟨h, rfl⟩
  | j + 1, s, s', u, h => by
    rw [bdsUpdateLoopT, bdsUpdateLoopT]
    refine RelR.bindO (R := Eq) (optR_eq (by rw [pickLevel, pickLevel, pickLoop_rel h])) fun r r' hr _ e => ?_
    subst e
    refine RelR.ite Iff.rfl (fun _ => RelR.pure ⟨h, rfl⟩) fun h0 => ?_
    refine (treehashUpdate_rel h r ?_ sk ps sk' ps' a a').bind fun s1 s1' h1 => bdsUpdateLoop_rel sk ps sk' ps' a a' j _ _ _ h1
    intro t ht
    rcases pickLoop_sound _ _ _ _ _ le_rfl hr with e | ⟨t', ht', e⟩
    · exact absurd e h0
    · rw [ht] at ht'
      cases ht'
      exact e

theorem bdsTreehashUpdate_rel (h : CtlP True s s') (u : Nat) (sk ps sk' ps' : Bytes) (a a' : Addr) :
    RelR c (fun r r' => CtlP True r.1 r'.1 ∧ r.2 = r'.2) (bdsTreehashUpdateT H p s u sk ps a) (bdsTreehashUpdateT H' p s' u sk' ps' a') := by
  rw [bdsTreehashUpdateT, bdsTreehashUpdateT]
  exact (bdsUpdateLoop_rel sk ps sk' ps' a a' u s s' 0 h).bind fun r r' hr => RelR.pure ⟨hr.1, by rw [hr.2]⟩

theorem bdsStateUpdate_rel (h : CtlP b s s') (sk ps sk' ps' : Bytes) (a a' : Addr) :
    RelR c (CtlP b) (bdsStateUpdateT H p s sk ps a) (bdsStateUpdateT H' p s' sk' ps' a') := by
  rw [bdsStateUpdateT, bdsStateUpdateT, ← h.next]
  refine RelR.ite Iff.rfl (fun _ => RelR.pure h) fun _ => ?_
  exact (addLeaf_rel h _ _ _ _ _ _ _ _ _ _ _).bind fun r r' hr => RelR.pure { hr with next := by rw [hr.next] }

theorem authLoop_rel (φ : Nat) : ∀ (k i : Nat) (s s' : BdsState), CtlP b s s' → OptR (CtlP b) (authLoop p φ k i s) (authLoop p φ k i s')
  | 0, _, _, _, h => OptR.some h
  | k + 1, i, s, s', h => by
    rw [authLoop, authLoop]
    refine OptR.bind (R := fun _ _ => True) ?_ fun x x' _ _ _ => ?_
    · refine OptR.ite Iff.rfl (fun _ => ?_) fun _ => optR_get h.retain_len _
      exact (optR_get h.insts_len i).bind fun t t' _ _ _ => OptR.some trivial
    · refine (optR_setA h.auth_len i x x').bind fun y y' _ _ hy => authLoop_rel φ k (i + 1) _ _ ?_
      exact { h with auth_len := by simp [hy.1, hy.2.1, h.auth_len] }

theorem restartLoop_rel (φ : Nat) : ∀ (k i : Nat) (s s' : BdsState), CtlP b s s' →
    OptR (CtlP b) (restartLoop p φ k i s) (restartLoop p φ k i s')
  | 0, _, _, _, h => OptR.some h
  | k + 1, i, s, s', h => by
    rw [restartLoop, restartLoop]
    refine OptR.bind (R := CtlP b) ?_ fun x x' _ _ hx => restartLoop_rel φ k (i + 1) x x' hx
    refine OptR.ite Iff.rfl (fun _ => ?_) fun _ => OptR.some h
    refine (optR_get h.insts_len i).bind fun t t' _ _ _ => OptR.some ?_
    exact h.set_inst ⟨Iff.rfl, fun _ => ⟨rfl, rfl, rfl⟩, by simp, by simp⟩

theorem bdsRound_rel (h : CtlP b s s') (φ : Nat) (sk ps sk' ps' : Bytes) (a a' : Addr) :
    RelR c (CtlP b) (bdsRoundT H p s φ sk ps a) (bdsRoundT H' p s' φ sk' ps' a') := by
  rw [bdsRoundT, bdsRoundT]
  refine RelR.bindO (R := fun _ _ => True) ?_ fun x x' _ _ _ => ?_
  · refine OptR.ite Iff.rfl (fun _ => ?_) fun _ => OptR.some trivial
    exact (optR_get h.auth_len _).bind fun _ _ _ _ _ => (optR_get h.keep_len _).bind fun _ _ _ _ _ => OptR.some trivial
  refine RelR.bindO (R := CtlP b) ?_ fun s1 s1' _ _ h1 => ?_
  · refine OptR.ite Iff.rfl (fun _ => ?_) fun _ => OptR.some h
    refine (optR_get h.auth_len _).bind fun y y' _ _ _ => (optR_setA h.keep_len _ _ _).bind fun z z' _ _ hz => OptR.some ?_
    exact { h with keep_len := by simp [hz.1, hz.2.1, h.keep_len] }
  refine RelR.ite Iff.rfl (fun _ => ?_) fun _ => ?_
  · rw [genLeafWotsT_eq, genLeafWotsT_eq]
    refine RelR.bind (R := fun _ _ => True) (RelR.mk trivial fun _ => rfl) fun g g' _ => ?_
    refine RelR.bindO (optR_setA h1.auth_len _ _ _) fun y y' _ _ hy => RelR.pure ?_
    exact { h1 with auth_len := by simp [hy.1, hy.2.1, h1.auth_len] }
  · rw [thashHT_eq, thashHT_eq]
    refine RelR.bind (R := fun _ _ => True) (RelR.mk trivial fun _ => rfl) fun g g' _ => ?_
    refine RelR.bindO (optR_setA h1.auth_len _ _ _) fun y y' _ _ hy => ?_
    refine RelR.bindO (authLoop_rel φ _ _ _ _ ?_) fun z z' _ _ hz => RelR.opt (restartLoop_rel φ _ _ _ _ hz)
    exact { h1 with auth_len := by simp [hy.1, hy.2.1, h1.auth_len] }

end Xmss
