import Verif.Proof.BdsRound
/-
Building the state of a tree leaf by leaf: `treehash_init` and `bds_state_update`.
-/
namespace Xmss
open Sched

variable {H : Bytes → Bytes} {p : Params}

/-- Right node number `2 * r + 1` of height `i` is where the traversal will look for it. -/
structure StoredNode (p : Params) (N : Nat → Nat → Bytes) (i r : Nat) (s : BdsState) : Prop where
  auth : r = 0 → s.auth[i]? = some (N i 1)
  inst : r = 1 → i < p.insts → ∃ t, s.treehash[i]? = some t ∧ t.node = N i 3
  retain : 1 ≤ r → p.insts ≤ i → s.retain[retainSlot p.tree_height i (r - 1)]? = some (N i (2 * r + 1))

/-- Everything of the instances but the nodes. -/
def metas (s : BdsState) : List TreehashInst := s.treehash.map (fun t => { t with node := [] })

theorem metas_set {s : BdsState} {i : Nat} {t : TreehashInst} {x : Bytes} (h : s.treehash[i]? = some t) :
    metas { s with treehash := s.treehash.set i { t with node := x } } = metas s := by
  unfold metas
  simp only [List.map_set]
  apply List.ext_getElem?
  intro j
  by_cases hj : j = i
  · subst hj
    have hl : j < s.treehash.length := (List.getElem?_eq_some_iff.mp h).1
    rw [List.getElem?_set_self (by simpa using hl), List.getElem?_map, h]
    rfl
  · rw [List.getElem?_set_ne (Ne.symm hj)]

/-- Fields that adding a leaf leaves alone. -/
structure SameMeta (s s' : BdsState) : Prop where
  metas : metas s' = metas s
  keep : s'.keep = s.keep
  nextLeaf : s'.nextLeaf = s.nextLeaf

theorem SameMeta.refl (s : BdsState) : SameMeta s s := ⟨rfl, rfl, rfl⟩
theorem SameMeta.trans {s s' s'' : BdsState} (h : SameMeta s s') (h' : SameMeta s' s'') : SameMeta s s'' :=
  ⟨h'.metas.trans h.metas, h'.keep.trans h.keep, h'.nextLeaf.trans h.nextLeaf⟩

/-- Fields that storing a node leaves alone. -/
structure SameStack (s s' : BdsState) : Prop where
  stack : s'.stack = s.stack
  levels : s'.stacklevels = s.stacklevels
  off : s'.stackoffset = s.stackoffset
  leaves : s'.leaves = s.leaves

theorem retainSlot_mono {Hh i i' r r' : Nat} (hi : i' < i) (hih : i < Hh) (hr : 2 * r + 3 < 2 ^ (Hh - i)) :
    retainSlot Hh i r < retainSlot Hh i' r' := by
  have h1 := retainSlot_lt (K := Hh - i) (Hh := Hh) (i := i) (r := r) (by omega) (by omega) hih hr
  refine lt_of_lt_of_le h1 ?_
  unfold retainSlot
  obtain ⟨e, he⟩ : ∃ e, Hh - 1 - i' = Hh - i + e := ⟨i - i' - 1, by omega⟩
  rw [he]
  have h2 : 2 ^ (Hh - i) * (e + 1) ≤ 2 ^ (Hh - i + e) := by
    rw [pow_add]; exact Nat.mul_le_mul_left _ Nat.lt_two_pow_self
  have h3 : e ≤ 2 ^ (Hh - i) * e := Nat.le_mul_of_pos_left _ (Nat.two_pow_pos _)
  rw [Nat.mul_add, mul_one] at h2
  omega

theorem retainSlot_inj {Hh i i' r r' : Nat} (hih : i < Hh) (hih' : i' < Hh) (hr : 2 * r + 3 < 2 ^ (Hh - i))
    (hr' : 2 * r' + 3 < 2 ^ (Hh - i')) (h : retainSlot Hh i r = retainSlot Hh i' r') : i = i' ∧ r = r' := by
  rcases Nat.lt_trichotomy i i' with hlt | heq | hlt
  · have := retainSlot_mono (r' := r) hlt hih' hr'; omega
  · subst heq
    unfold retainSlot at h
    exact ⟨rfl, by omega⟩
  · have := retainSlot_mono (r' := r') hlt hih hr; omega

theorem storeNode_eq {N : Nat → Nat → Bytes} (hlen : ∀ h i, (N h i).length = p.n) (hK : p.bds_k ≤ p.tree_height) {s : BdsState}
    (sh : Shape p s) {idx j q : Nat} (hj : j < p.tree_height) (hidx : idx >>> j = 2 * q + 1)
    (hq : 2 * q + 1 < 2 ^ (p.tree_height - j)) :
    ∃ s', storeNode p s idx j (N j (2 * q + 1)) = some s' ∧ Shape p s' ∧ SameMeta s s' ∧ SameStack s s' ∧
      StoredNode p N j q s' ∧
      (∀ i r, i < p.tree_height → 2 * r + 1 < 2 ^ (p.tree_height - i) → StoredNode p N i r s → StoredNode p N i r s') ∧
      ∀ i, (i = j → q ≠ 0) → s'.auth[i]? = s.auth[i]? := by
  rw [storeNode, hidx]
  by_cases h1 : 2 * q + 1 = 1
  · have hq0 : q = 0 := by omega
    subst hq0
    have hjl : j < s.auth.length := by rw [sh.auth_len]; exact hj
    rw [if_pos h1, setA_some hjl]
    refine ⟨_, rfl, ?_, ⟨rfl, rfl, rfl⟩, ⟨rfl, rfl, rfl, rfl⟩, ⟨fun _ => ?_, fun h => by omega, fun h => by omega⟩, ?_,
      fun i hi => List.getElem?_set_ne (fun h => hi h.symm rfl)⟩
    · exact { sh with auth_len := by simpa using sh.auth_len, auth_mem := forall_mem_set sh.auth_mem (hlen _ _) }
    · simp only; rw [List.getElem?_set_self hjl]
    · intro i r hi hr hst
      refine ⟨fun hr0 => ?_, hst.inst, hst.retain⟩
      simp only
      by_cases hij : i = j
      · subst hij; rw [List.getElem?_set_self hjl]
      · rw [List.getElem?_set_ne (Ne.symm hij)]; exact hst.auth hr0
  · rw [if_neg h1]
    by_cases h2 : j < p.insts ∧ 2 * q + 1 = 3
    · have hq1 : q = 1 := by omega
      subst hq1
      have hjl : j < s.treehash.length := by rw [sh.insts_len]; exact h2.1
      rw [if_pos h2, List.getElem?_eq_getElem hjl]
      have hget := List.getElem?_eq_getElem hjl
      have htm := sh.insts_mem s.treehash[j] (List.getElem_mem _)
      refine ⟨_, rfl, ?_, ⟨metas_set hget, rfl, rfl⟩, ⟨rfl, rfl, rfl, rfl⟩, ⟨fun h => by omega, fun _ _ => ?_, fun _ h => by omega⟩, ?_, fun _ _ => rfl⟩
      · exact { sh with
          insts_len := by simpa using sh.insts_len
          insts_mem := forall_mem_set sh.insts_mem ⟨htm.1, htm.2.1, htm.2.2.1, htm.2.2.2.1, hlen _ _⟩ }
      · exact ⟨_, List.getElem?_set_self hjl, rfl⟩
      · intro i r hi hr hst
        refine ⟨hst.auth, fun hr1 him => ?_, hst.retain⟩
        by_cases hij : i = j
        · subst hij; exact ⟨_, List.getElem?_set_self hjl, rfl⟩
        · simp only
          rw [List.getElem?_set_ne (Ne.symm hij)]; exact hst.inst hr1 him
    · rw [if_neg h2]
      by_cases h3 : p.insts ≤ j
      · rw [if_pos h3]
        have hslot : (1 <<< (p.tree_height - 1 - j)) + j - p.tree_height + ((2 * q + 1 - 3) >>> 1) =
            retainSlot p.tree_height j (q - 1) := by
          unfold retainSlot
          rw [Nat.one_shiftLeft, Nat.shiftRight_one]
          congr 1
          omega
        rw [hslot]
        have hr : 2 * (q - 1) + 3 < 2 ^ (p.tree_height - j) := by omega
        have hl : retainSlot p.tree_height j (q - 1) < s.retain.length := by
          rw [sh.retain_len]
          exact retainSlot_lt hK h3 hj hr
        rw [setA_some hl]
        refine ⟨_, rfl, ?_, ⟨rfl, rfl, rfl⟩, ⟨rfl, rfl, rfl, rfl⟩, ⟨fun h => by omega, fun _ h => by omega, fun _ _ => ?_⟩, ?_, fun _ _ => rfl⟩
        · exact { sh with retain_len := by simpa using sh.retain_len, retain_mem := forall_mem_set sh.retain_mem (hlen _ _) }
        · simp only
          rw [List.getElem?_set_self hl]
        · intro i r hi hr' hst
          refine ⟨hst.auth, hst.inst, fun hr1 him => ?_⟩
          simp only
          by_cases he : retainSlot p.tree_height j (q - 1) = retainSlot p.tree_height i (r - 1)
          · obtain ⟨e1, e2⟩ := retainSlot_inj hj hi hr (by omega) he
            rw [← he, List.getElem?_set_self hl, ← e1]
            congr 3
            omega
          · rw [List.getElem?_set_ne he]
            exact hst.retain hr1 him
      · rw [if_neg h3]
        exact ⟨s, rfl, sh, SameMeta.refl s, ⟨rfl, rfl, rfl, rfl⟩, ⟨fun h => by omega, fun h _ => by omega, fun _ h => by omega⟩,
          fun _ _ _ _ h => h, fun _ _ => rfl⟩

/-- The merging of nodes after a new leaf. -/
theorem mergeLoop_eq {skSeed pubSeed : Bytes} {layer tree : Nat} {N : Nat → Nat → Bytes}
    (ctx : TreeCtx H p skSeed pubSeed layer tree N) (hth : p.tree_height < 31) (hK : p.bds_k ≤ p.tree_height) {idx : Nat}
    (hidx : idx < 2 ^ p.tree_height) :
    ∀ (L : List (Bytes × Nat)) (j m fuel : Nat) (s : BdsState) (a : Addr), IsStk N j m L → Shape p s →
      Rep s ((N j m, j) :: L) → idx + 1 = 2 ^ j * (m + 1) → L.length < fuel → IsTree a layer tree →
      (∀ i r, i < j → i < p.tree_height → (2 * r + 2) * 2 ^ i ≤ idx + 1 → StoredNode p N i r s) →
      (∀ i r, j ≤ i → i < p.tree_height → (2 * r + 2) * 2 ^ i ≤ idx → StoredNode p N i r s) →
      ∃ s' a' L', mergeLoop H p pubSeed idx fuel s a = some (s', a') ∧ Shape p s' ∧ Rep s' L' ∧ IsStk N j (m + 1) L' ∧
        IsTree a' layer tree ∧ SameMeta s s' ∧ s'.leaves = s.leaves ∧
        (∀ i r, i < p.tree_height → (2 * r + 2) * 2 ^ i ≤ idx + 1 → StoredNode p N i r s') ∧
        (idx + 1 < 2 ^ p.tree_height → s'.auth[p.tree_height - 1]? = s.auth[p.tree_height - 1]?) := by
  intro L
  -- common part: a merge is not possible at an even position
  have hstop : ∀ (s : BdsState) (j q : Nat), idx + 1 = 2 ^ j * (2 * q + 1) →
      (∀ i r, i < j → i < p.tree_height → (2 * r + 2) * 2 ^ i ≤ idx + 1 → StoredNode p N i r s) →
      (∀ i r, j ≤ i → i < p.tree_height → (2 * r + 2) * 2 ^ i ≤ idx → StoredNode p N i r s) →
      (∀ i r, i < p.tree_height → (2 * r + 2) * 2 ^ i ≤ idx + 1 → StoredNode p N i r s) := by
    intro s j q hq h1 h2 i r hi hr
    by_cases hij : i < j
    · exact h1 i r hij hi hr
    · apply h2 i r (by omega) hi
      rcases Nat.lt_or_ge idx ((2 * r + 2) * 2 ^ i) with hlt | hge
      · exfalso
        have heq : idx + 1 = (2 * r + 2) * 2 ^ i := by omega
        obtain ⟨e, rfl⟩ : ∃ e, i = j + e := ⟨i - j, by omega⟩
        rw [hq, pow_add, show (2 * r + 2) * (2 ^ j * 2 ^ e) = 2 ^ j * (2 * ((r + 1) * 2 ^ e)) by ring] at heq
        have := Nat.eq_of_mul_eq_mul_left (Nat.two_pow_pos j) heq
        omega
      · exact hge
  induction L with
  | nil =>
    intro j m fuel s a hs sh hr hm hf ha h1 h2
    rcases Nat.even_or_odd' m with ⟨q, rfl | rfl⟩
    · refine ⟨s, a, [(N j (2 * q), j)], ?_, sh, hr, IsStk.odd hs.inv_even, ha, SameMeta.refl s, rfl, hstop s j q hm h1 h2, fun _ => rfl⟩
      obtain ⟨f, rfl⟩ : ∃ f, fuel = f + 1 := ⟨fuel - 1, by simp at hf; omega⟩
      rw [mergeLoop, if_pos (by rw [hr.off]; simp)]
    · obtain ⟨_, h, _⟩ := hs.inv_odd; simp at h
  | cons x L ih =>
    intro j m fuel s a hs sh hr hm hf ha h1 h2
    obtain ⟨f, rfl⟩ : ∃ f, fuel = f + 1 := ⟨fuel - 1, by simp at hf; omega⟩
    have hoff : s.stackoffset = L.length + 2 := by rw [hr.off]; simp
    have hl1 : s.stacklevels[L.length + 1]? = some j := by
      have := RepL.top (l := s.stacklevels) (L := (x :: L).map Prod.snd) hr.levels
      simpa using this
    have hl2 : s.stacklevels[L.length]? = some x.2 := by
      have := RepL.top (l := s.stacklevels) (L := L.map Prod.snd) (x := x.2) (RepL.pop hr.levels)
      simpa using this
    have hv1 : s.stack[L.length + 1]? = some (N j m) := by
      have := RepL.top (l := s.stack) (L := (x :: L).map Prod.fst) hr.stack
      simpa using this
    have hv2 : s.stack[L.length]? = some x.1 := by
      have := RepL.top (l := s.stack) (L := L.map Prod.fst) (x := x.1) (RepL.pop hr.stack)
      simpa using this
    rcases Nat.even_or_odd' m with ⟨q, rfl | rfl⟩
    · have hx := hs.inv_even.heights x (by simp)
      refine ⟨s, a, _, ?_, sh, hr, IsStk.odd hs.inv_even, ha, SameMeta.refl s, rfl, hstop s j q hm h1 h2, fun _ => rfl⟩
      rw [mergeLoop, if_neg (by omega), hoff]
      simp only [show L.length + 2 - 1 = L.length + 1 by omega, show L.length + 2 - 2 = L.length by omega, hl1, hl2,
        Option.bind_eq_bind, Option.bind_some]
      rw [if_pos (by omega)]
    · obtain ⟨L0, h, hs'⟩ := hs.inv_odd
      simp only [List.cons.injEq] at h
      obtain ⟨rfl, rfl⟩ := h
      simp only at hl2 hv2
      have hsh : idx >>> j = 2 * q + 1 := by rw [Nat.shiftRight_eq_div_pow]; exact div_of_succ_eq hm
      have hm' : idx + 1 = 2 ^ (j + 1) * (q + 1) := by rw [hm, pow_succ]; ring
      have hsh' : idx >>> (j + 1) = q := by rw [Nat.shiftRight_eq_div_pow]; exact div_of_succ_eq hm'
      have hj : j < p.tree_height := by
        by_contra hc
        have : 2 ^ p.tree_height ≤ 2 ^ j := Nat.pow_le_pow_right (by omega) (by omega)
        have h3 : 2 ^ j * 2 ≤ 2 ^ j * (2 * q + 1 + 1) := Nat.mul_le_mul_left _ (by omega)
        have := Nat.two_pow_pos j
        omega
      have hq : 2 * q + 1 < 2 ^ (p.tree_height - j) := by
        have h3 : 2 ^ j * (2 * q + 1 + 1) ≤ 2 ^ j * 2 ^ (p.tree_height - j) := by
          rw [← pow_add, Nat.add_sub_cancel' (by omega), ← hm]; omega
        have := Nat.le_of_mul_le_mul_left h3 (Nat.two_pow_pos j)
        omega
      obtain ⟨s1, e1, sh1, sm1, ss1, st1, st2, fr1⟩ := storeNode_eq ctx.len hK sh hj hsh hq
      have hcap : L.length < s1.stack.length := by
        rw [ss1.stack]
        have := hr.stack.length_le
        simp at this; omega
      have hcap' : L.length < s1.stacklevels.length := by
        rw [ss1.levels]
        have := hr.levels.length_le
        simp at this; omega
      obtain ⟨s2, hs2⟩ : ∃ s2 : BdsState, s2 = { s1 with
          stack := s1.stack.set L.length (N (j + 1) q)
          stacklevels := s1.stacklevels.set L.length (j + 1)
          stackoffset := L.length + 1 } := ⟨_, rfl⟩
      have sh2 : Shape p s2 := by
        rw [hs2]
        exact { sh1 with
          stack_len := by simpa using sh1.stack_len
          stack_mem := forall_mem_set sh1.stack_mem (ctx.len _ _)
          levels_len := by simpa using sh1.levels_len
          levels_mem := forall_mem_set sh1.levels_mem (by omega)
          off_lt := by
            have := sh1.stack_len
            simp only
            omega }
      have hr2 : Rep s2 ((N (j + 1) q, j + 1) :: L) := by
        rw [hs2]
        refine ⟨by simp, ?_, ?_⟩
        · have h3 : RepL s1.stack (L.map Prod.fst) := by rw [ss1.stack]; exact hr.stack.pop.pop
          have h4 := h3.push (N (j + 1) q) (by rw [List.length_map]; exact hcap)
          rw [List.length_map] at h4
          exact h4
        · have h3 : RepL s1.stacklevels (L.map Prod.snd) := by rw [ss1.levels]; exact hr.levels.pop.pop
          have h4 := h3.push (j + 1) (by rw [List.length_map]; exact hcap')
          rw [List.length_map] at h4
          exact h4
      have hst2 : ∀ i r, StoredNode p N i r s1 → StoredNode p N i r s2 := by
        intro i r h; rw [hs2]; exact ⟨h.auth, h.inst, h.retain⟩
      have hbnd : ∀ i r c, i < p.tree_height → (2 * r + 2) * 2 ^ i ≤ c → c ≤ 2 ^ p.tree_height →
          2 * r + 1 < 2 ^ (p.tree_height - i) := by
        intro i r c hi hr hc
        have h3 : (2 * r + 2) * 2 ^ i ≤ 2 ^ (p.tree_height - i) * 2 ^ i := by
          rw [← pow_add, Nat.sub_add_cancel (by omega)]; omega
        have := Nat.le_of_mul_le_mul_right h3 (Nat.two_pow_pos i)
        omega
      have had := ctx.nodeAddr a j q (N j (2 * q) ++ N j (2 * q + 1)) ha
      obtain ⟨s', a', L', r1, r2, r3, r4, r5, r6, r7, r8, r9⟩ := ih (j + 1) q f s2 _ hs' sh2 hr2 hm' (by simp at hf; omega) had
        (by
          intro i r hij hi hle
          apply hst2
          by_cases hc : i = j
          · subst hc
            by_cases hrq : r = q
            · rw [hrq]; exact st1
            · apply st2 i r hi (hbnd i r _ hi hle (by omega))
              apply h2 i r (le_refl _) hi
              by_contra hcon
              apply hrq
              have heq : (2 * r + 2) * 2 ^ i = 2 ^ (i + 1) * (q + 1) := by omega
              rw [show (2 * r + 2) * 2 ^ i = 2 ^ (i + 1) * (r + 1) by ring] at heq
              have := Nat.eq_of_mul_eq_mul_left (Nat.two_pow_pos (i + 1)) heq
              omega
          · exact st2 i r hi (hbnd i r _ hi hle (by omega)) (h1 i r (by omega) hi hle))
        (by
          intro i r hij hi hle
          apply hst2
          exact st2 i r hi (hbnd i r _ hi hle (by omega)) (h2 i r (by omega) hi hle))
      refine ⟨s', a', L', ?_, r2, r3, ?_, r5, ?_, ?_, r8, ?_⟩
      · rw [mergeLoop, if_neg (by omega), hoff]
        simp only [show L.length + 2 - 1 = L.length + 1 by omega, show L.length + 2 - 2 = L.length by omega, hl1, hl2,
          Option.bind_eq_bind, Option.bind_some, hv1]
        rw [if_neg (by simp), e1]
        simp only [Option.bind_some]
        rw [ss1.off, hoff]
        simp only [show L.length + 2 - 1 = L.length + 1 by omega, show L.length + 2 - 2 = L.length by omega]
        rw [ss1.stack, hv2]
        simp only [Option.bind_some]
        rw [hsh', ctx.node a j q ha]
        rw [← ss1.stack, setA_some hcap, setA_some hcap']
        simp only [Option.bind_some]
        rw [← hs2]
        exact r1
      · rw [show 2 * q + 1 + 1 = 2 * (q + 1) by ring]; exact IsStk.even r4
      · refine sm1.trans (SameMeta.trans ⟨?_, ?_, ?_⟩ r6)
        all_goals rw [hs2]
        rfl
      · rw [r7, hs2]; exact ss1.leaves
      · intro hlt
        have e2 : s2.auth = s1.auth := by rw [hs2]
        rw [r9 hlt, e2]
        apply fr1
        intro he hq0
        rw [hq0, ← he] at hm
        have : 2 ^ (p.tree_height - 1) * (2 * 0 + 1 + 1) = 2 ^ p.tree_height := by
          obtain ⟨k, hk⟩ : ∃ k, p.tree_height = k + 1 := ⟨p.tree_height - 1, by omega⟩
          rw [hk, Nat.add_sub_cancel, pow_succ]
        omega

/-- A state under construction after `c` leaves. -/
structure BuildInv (p : Params) (N : Nat → Nat → Bytes) (c : Nat) (s : BdsState) : Prop where
  shape : Shape p s
  stack : ∃ L, Rep s L ∧ IsStk N 0 c L
  stored : ∀ i r, i < p.tree_height → (2 * r + 2) * 2 ^ i ≤ c → StoredNode p N i r s

theorem addLeaf_eq {skSeed pubSeed : Bytes} {layer tree : Nat} {N : Nat → Nat → Bytes}
    (ctx : TreeCtx H p skSeed pubSeed layer tree N) (hth : p.tree_height < 31) (h3 : 3 ≤ p.tree_height)
    (hK : p.bds_k ≤ p.tree_height) {c : Nat} (hc : c < 2 ^ p.tree_height) {s : BdsState} (b : BuildInv p N c s)
    {lt ots nd : Addr} {o1 o2 : Nat} (hlt : IsLtree lt layer tree o1) (hots : IsOts ots layer tree o2) (hnd : IsTree nd layer tree) :
    ∃ s' lt' ots' nd', addLeaf H p skSeed pubSeed c s lt ots nd = some (s', lt', ots', nd') ∧ BuildInv p N (c + 1) s' ∧
      IsLtree lt' layer tree c ∧ IsOts ots' layer tree c ∧ IsTree nd' layer tree ∧ SameMeta s s' ∧
      s'.leaves = s.leaves + 1 ∧
      (c + 1 < 2 ^ p.tree_height → s'.auth[p.tree_height - 1]? = s.auth[p.tree_height - 1]?) := by
  obtain ⟨L, hr, hs⟩ := b.stack
  have sh := b.shape
  obtain ⟨g1, g2, g3⟩ := ctx.leaf lt ots c o1 o2 hlt hots
  have hL : L.length ≤ p.tree_height := hs.length_le _ hc
  have hcap : s.stackoffset < s.stack.length := by rw [hr.off, sh.stack_len]; omega
  have hcap' : s.stackoffset < s.stacklevels.length := by rw [hr.off, sh.levels_len]; omega
  rw [addLeaf]
  simp only [Option.bind_eq_bind]
  rw [setA_some hcap, setA_some hcap']
  simp only [Option.bind_some]
  rw [g1]
  obtain ⟨s1, hs1⟩ : ∃ s1 : BdsState, s1 = { s with
      stack := s.stack.set s.stackoffset (N 0 c), stackoffset := s.stackoffset + 1,
      stacklevels := s.stacklevels.set s.stackoffset 0, leaves := s.leaves + 1 } := ⟨_, rfl⟩
  have sh1 : Shape p s1 := by
    rw [hs1]
    exact { sh with
      stack_len := by simpa using sh.stack_len
      stack_mem := forall_mem_set sh.stack_mem (ctx.len _ _)
      levels_len := by simpa using sh.levels_len
      levels_mem := forall_mem_set sh.levels_mem (by omega)
      off_lt := by simp only; rw [hr.off]; omega }
  have hr1 : Rep s1 ((N 0 c, 0) :: L) := by
    rw [hs1]
    refine ⟨by simp [hr.off], ?_, ?_⟩
    · have h4 := hr.stack.push (N 0 c) (by rw [List.length_map, ← hr.off]; exact hcap)
      rw [List.length_map, ← hr.off] at h4
      exact h4
    · have h4 := hr.levels.push 0 (by rw [List.length_map, ← hr.off]; exact hcap')
      rw [List.length_map, ← hr.off] at h4
      exact h4
  have hst1 : ∀ i r, i < p.tree_height → (2 * r + 2) * 2 ^ i ≤ c → StoredNode p N i r s1 := by
    intro i r hi hle
    have := b.stored i r hi hle
    rw [hs1]
    exact ⟨this.auth, this.inst, this.retain⟩
  have sm1 : SameMeta s s1 := by rw [hs1]; exact ⟨rfl, rfl, rfl⟩
  have hl1 : s1.leaves = s.leaves + 1 := by rw [hs1]
  have ho1 : s1.stackoffset = s.stackoffset + 1 := by rw [hs1]
  -- the copy of the slot above
  obtain ⟨s2, e2, sh2, hr2, hst2, sm2, hl2, ho2, ha2⟩ : ∃ s2, (if 0 < p.insts ∧ c = 3 then do
      let stale ← s1.stack[s1.stackoffset]?
      let t ← s1.treehash[0]?
      some { s1 with treehash := s1.treehash.set 0 { t with node := stale } }
    else some s1 : Option BdsState) = some s2 ∧ Shape p s2 ∧ Rep s2 ((N 0 c, 0) :: L) ∧
      (∀ i r, i < p.tree_height → (2 * r + 2) * 2 ^ i ≤ c → StoredNode p N i r s2) ∧ SameMeta s1 s2 ∧
      s2.leaves = s1.leaves ∧ s2.stackoffset = s1.stackoffset ∧ s2.auth = s1.auth := by
    by_cases hcond : 0 < p.insts ∧ c = 3
    · rw [if_pos hcond]
      have hL2 : L.length = 2 := by
        have h5 := hs
        rw [hcond.2] at h5
        obtain ⟨L1, rfl, h6⟩ := IsStk.inv_odd (m := 1) h5
        obtain ⟨L2, rfl, h7⟩ := IsStk.inv_odd (m := 0) h6
        rw [h7.of_zero rfl]; rfl
      have hslot : s1.stackoffset < s1.stack.length := by
        rw [ho1, hr.off, sh1.stack_len]; omega
      have hins : 0 < s1.treehash.length := by rw [sh1.insts_len]; exact hcond.1
      rw [List.getElem?_eq_getElem hslot, List.getElem?_eq_getElem hins]
      simp only [Option.bind_eq_bind, Option.bind_some]
      have htm := sh1.insts_mem s1.treehash[0] (List.getElem_mem _)
      refine ⟨_, rfl, ?_, ⟨hr1.off, hr1.stack, hr1.levels⟩, ?_, ⟨metas_set (List.getElem?_eq_getElem hins), rfl, rfl⟩, rfl, rfl, rfl⟩
      · exact { sh1 with
          insts_len := by simpa using sh1.insts_len
          insts_mem := forall_mem_set sh1.insts_mem
            ⟨htm.1, htm.2.1, htm.2.2.1, htm.2.2.2.1, sh1.stack_mem _ (List.getElem_mem _)⟩ }
      · intro i r hi hle
        have h5 := hst1 i r hi hle
        refine ⟨h5.auth, fun hr1' him => ?_, h5.retain⟩
        have hi0 : i ≠ 0 := by
          intro h0; rw [h0, hr1', hcond.2] at hle; omega
        simp only
        rw [List.getElem?_set_ne (Ne.symm hi0)]
        exact h5.inst hr1' him
    · rw [if_neg hcond]
      exact ⟨s1, rfl, sh1, hr1, hst1, SameMeta.refl s1, rfl, rfl, rfl⟩
  have hmerge := mergeLoop_eq ctx hth hK hc L 0 c s2.stackoffset s2 nd hs sh2 hr2 (by rw [pow_zero, one_mul])
    (by rw [hr2.off]; simp) hnd (fun i r h => by omega) (fun i r _ hi hle => hst2 i r hi hle)
  obtain ⟨s', a', L', r1, r2, r3, r4, r5, r6, r7, r8, r9⟩ := hmerge
  rw [hs1] at e2
  simp only [Option.bind_eq_bind] at e2
  rw [e2]
  simp only [Option.bind_some]
  rw [r1]
  simp only [Option.bind_some]
  exact ⟨s', _, _, a', rfl, ⟨r2, ⟨L', r3, r4⟩, r8⟩, g2, g3, r5, sm1.trans (sm2.trans r6), by rw [r7, hl2, hl1],
    fun h => by rw [r9 h, ha2, hs1]⟩

theorem addLeaves_eq {skSeed pubSeed : Bytes} {layer tree : Nat} {N : Nat → Nat → Bytes}
    (ctx : TreeCtx H p skSeed pubSeed layer tree N) (hth : p.tree_height < 31) (h3 : 3 ≤ p.tree_height)
    (hK : p.bds_k ≤ p.tree_height) :
    ∀ (k c : Nat) (s : BdsState) (lt ots nd : Addr) (o1 o2 : Nat), c + k ≤ 2 ^ p.tree_height → BuildInv p N c s →
      IsLtree lt layer tree o1 → IsOts ots layer tree o2 → IsTree nd layer tree →
      ∃ s', addLeaves H p skSeed pubSeed k c s lt ots nd = some s' ∧ BuildInv p N (c + k) s' ∧ SameMeta s s' ∧
        s'.leaves = s.leaves + k := by
  intro k
  induction k with
  | zero =>
    intro c s lt ots nd o1 o2 _ b _ _ _
    exact ⟨s, rfl, b, SameMeta.refl s, rfl⟩
  | succ k ih =>
    intro c s lt ots nd o1 o2 hk b hlt hots hnd
    obtain ⟨s1, lt', ots', nd', e1, b1, a1, a2, a3, sm1, l1, fr1⟩ := addLeaf_eq ctx hth h3 hK (by omega) b hlt hots hnd
    obtain ⟨s2, e2, b2, sm2, l2⟩ := ih (c + 1) s1 lt' ots' nd' c c (by omega) b1 a1 a2 a3
    refine ⟨s2, ?_, by rw [show c + (k + 1) = c + 1 + k by omega]; exact b2, sm1.trans sm2, by rw [l2, l1]; omega⟩
    rw [addLeaves, e1]
    simp only [Option.bind_eq_bind, Option.bind_some]
    exact e2

/-- A finished tree, with whatever lies on the stack now. -/
theorem BuildInv.treeInv {N : Nat → Nat → Bytes} {s s' : BdsState} (b : BuildInv p N (2 ^ p.tree_height) s)
    (sh : Shape p s') (hauth : s'.auth = s.auth) (hret : s'.retain = s.retain)
    (hins : ∀ (i : Nat) (t : TreehashInst), s.treehash[i]? = some t → ∃ t', s'.treehash[i]? = some t' ∧ t'.node = t.node ∧ t'.completed ≠ 0)
    {base : List (Bytes × Nat)} (hr : Rep s' base) (hbl : base.length ≤ 1) (hbg : ∀ x ∈ base, p.tree_height ≤ x.2 ∧ x.2 < 256) :
    TreeInv p N base 0 (fun i => 2 ^ i) (fun _ => []) s' := by
  have hM : p.insts ≤ p.tree_height := Nat.sub_le _ _
  have hlow : ∀ i r, i < p.tree_height → 2 * r + 1 < 2 ^ (p.tree_height - i) → (2 * r + 2) * 2 ^ i ≤ 2 ^ p.tree_height := by
    intro i r hi hle
    obtain ⟨e, he⟩ : ∃ e, p.tree_height - i = e + 1 := ⟨p.tree_height - i - 1, by omega⟩
    have h1 : 2 * r + 2 ≤ 2 ^ (p.tree_height - i) := by omega
    calc (2 * r + 2) * 2 ^ i ≤ 2 ^ (p.tree_height - i) * 2 ^ i := Nat.mul_le_mul_right _ h1
      _ = 2 ^ p.tree_height := by rw [← pow_add, Nat.sub_add_cancel (by omega)]
  refine ⟨⟨sh, ?_, ⟨fun i _ => le_refl _, fun i j _ _ _ h _ => absurd h (lt_irrefl _)⟩, ?_, hbl, hbg⟩, ?_, ?_, ?_⟩
  · intro i hi
    have hil : i < s.treehash.length := by rw [b.shape.insts_len]; exact hi
    obtain ⟨t', h1, h2, h3⟩ := hins i _ (List.getElem?_eq_getElem hil)
    refine ⟨t', h1, fun _ => ⟨h3, rfl, fun ht => ?_⟩, fun h => absurd h (lt_irrefl _)⟩
    have htg : target 0 i = 3 := by unfold target; simp
    rw [htg] at ht ⊢
    obtain ⟨t, g1, g2⟩ := (b.stored i 1 (by omega) (hlow i 1 (by omega) ht)).inst rfl hi
    rw [List.getElem?_eq_getElem hil, Option.some.injEq] at g1
    rw [h2, g1, g2]
  · have : segs p.insts (fun _ => ([] : List (Bytes × Nat))) = [] := by unfold segs; simp
    rw [this]
    exact hr
  · intro i hi
    rw [hauth, Nat.zero_div]
    have h1 := (b.stored i 0 hi (hlow i 0 hi (by
      have : 2 ^ 1 ≤ 2 ^ (p.tree_height - i) := Nat.pow_le_pow_right (by omega) (by omega)
      omega))).auth rfl
    rw [h1]; rfl
  · intro j _ h; simp at h
  · intro i r h1 h2 h3
    rw [hret]
    have := (b.stored i (r + 1) h2 (hlow i (r + 1) h2 (by omega))).retain (by omega) h1
    rw [Nat.add_sub_cancel] at this
    rw [this]
    congr 2

theorem resetInsts_get : ∀ (l : List TreehashInst) (k i : Nat),
    (resetInsts k l)[i]? = l[i]?.map (fun t => { t with h := k + i, completed := 1, stackusage := 0 }) := by
  intro l
  induction l with
  | nil => intro k i; simp [resetInsts]
  | cons t l ih =>
    intro k i
    cases i with
    | zero => simp [resetInsts]
    | succ i =>
      rw [resetInsts, List.getElem?_cons_succ, List.getElem?_cons_succ, ih]
      congr 1
      funext t
      congr 1
      omega

theorem resetInsts_length : ∀ (l : List TreehashInst) (k : Nat), (resetInsts k l).length = l.length := by
  intro l
  induction l with
  | nil => intro k; rfl
  | cons t l ih => intro k; simp [resetInsts, ih]

/-- `treehash_init` on a fresh state. -/
theorem treehashInit_eq {skSeed pubSeed : Bytes} {layer tree : Nat} {N : Nat → Nat → Bytes} {addr : Addr}
    (ctx : TreeCtx H p skSeed pubSeed layer tree N) (hth : p.tree_height < 31) (h3 : 3 ≤ p.tree_height)
    (hK : p.bds_k ≤ p.tree_height) (ha : IsSub addr layer tree) {s : BdsState} (sh : Shape p s) (h0 : s.stackoffset = 0) :
    ∃ s', treehashInit H p s skSeed pubSeed addr = some (N p.tree_height 0, s') ∧
      TreeInv p N [] 0 (fun i => 2 ^ i) (fun _ => []) s' ∧ s'.nextLeaf = s.nextLeaf ∧
      s'.leaves = s.leaves + 2 ^ p.tree_height := by
  obtain ⟨w, hw⟩ : ∃ w : BdsState, w = { s with
    treehash := resetInsts 0 s.treehash
    stack := List.replicate (p.tree_height + 1) (List.replicate p.n 0)
    stacklevels := List.replicate (p.tree_height + 1) 0
    stackoffset := 0 } := ⟨_, rfl⟩
  have hM : p.insts ≤ p.tree_height := Nat.sub_le _ _
  have hget : ∀ (i : Nat) (t : TreehashInst), w.treehash[i]? = some t → t.completed = 1 ∧ t.h < 256 ∧ t.nextIdx < 2 ^ 32 ∧ t.stackusage < 256 ∧ t.node.length = p.n := by
    intro i t ht
    rw [hw] at ht
    simp only at ht
    rw [resetInsts_get, Option.map_eq_some_iff] at ht
    obtain ⟨t0, e1, rfl⟩ := ht
    have hm := sh.insts_mem t0 (List.mem_of_getElem? e1)
    have hi : i < s.treehash.length := (List.getElem?_eq_some_iff.mp e1).1
    rw [sh.insts_len] at hi
    exact ⟨rfl, by simp only; omega, hm.2.1, by simp, hm.2.2.2.2⟩
  have shw : Shape p w := by
    have hmem : ∀ t ∈ w.treehash, t.h < 256 ∧ t.nextIdx < 2 ^ 32 ∧ t.stackusage < 256 ∧ t.completed < 256 ∧ t.node.length = p.n := by
      intro t ht
      obtain ⟨i, hi⟩ := List.mem_iff_getElem?.mp ht
      obtain ⟨e1, e2, e3, e4, e5⟩ := hget i t hi
      exact ⟨e2, e3, e4, by omega, e5⟩
    rw [hw] at hmem ⊢
    exact { sh with
      stack_len := by simp
      stack_mem := by intro x hx; simp at hx; rw [hx]; simp
      levels_len := by simp
      levels_mem := by intro x hx; simp at hx; omega
      insts_len := by simp only; rw [resetInsts_length]; exact sh.insts_len
      insts_mem := hmem
      off_lt := by simp }
  have b0 : BuildInv p N 0 w := by
    refine ⟨shw, ⟨[], ⟨by rw [hw]; rfl, RepL.nil _, RepL.nil _⟩, IsStk.nil 0⟩, ?_⟩
    intro i r _ hle
    have : 0 < (2 * r + 2) * 2 ^ i := by positivity
    omega
  obtain ⟨w', e1, b, sm, hl⟩ := addLeaves_eq ctx hth h3 hK (2 ^ p.tree_height) 0 w (ltreeOf addr) (otsOf addr) (nodeOf addr) 0 0
    (by omega) b0 ha.ltree ha.ots ha.node
  rw [Nat.zero_add] at b
  obtain ⟨L, hr, hs⟩ := b.stack
  have hL := hs.full
  rw [Nat.zero_add] at hL
  have hroot : w'.stack[0]? = some (N p.tree_height 0) := by
    rw [hL] at hr
    exact RepL.top (l := w'.stack) (L := []) hr.stack
  refine ⟨{ w' with stack := s.stack, stacklevels := s.stacklevels, stackoffset := s.stackoffset }, ?_, ?_, ?_, ?_⟩
  · rw [treehashInit]
    simp only [Option.bind_eq_bind]
    rw [← hw, Nat.one_shiftLeft, e1]
    simp only [Option.bind_some]
    rw [hroot]
    rfl
  · refine b.treeInv (base := [])
      (s' := { w' with stack := s.stack, stacklevels := s.stacklevels, stackoffset := s.stackoffset }) ?_ rfl rfl ?_ ⟨by simp [h0], RepL.nil _, RepL.nil _⟩ (by simp) (by simp)
    · exact { b.shape with
        stack_len := sh.stack_len
        stack_mem := sh.stack_mem
        levels_len := sh.levels_len
        levels_mem := sh.levels_mem
        off_lt := sh.off_lt }
    · intro i t ht
      refine ⟨t, ht, rfl, ?_⟩
      have h1 : (metas w')[i]? = some { t with node := [] } := by
        unfold metas; rw [List.getElem?_map, ht]; rfl
      rw [sm.metas] at h1
      unfold metas at h1
      rw [List.getElem?_map, Option.map_eq_some_iff] at h1
      obtain ⟨t0, g1, g2⟩ := h1
      have h2 := (hget i t0 g1).1
      have h4 : t.completed = t0.completed := by
        have := congrArg TreehashInst.completed g2
        exact this.symm
      omega
  · have := sm.nextLeaf
    rw [hw] at this
    exact this
  · rw [hw] at hl
    exact hl

/-- `bds_state_update` on a tree under construction. -/
theorem bdsStateUpdate_eq {skSeed pubSeed : Bytes} {layer tree : Nat} {N : Nat → Nat → Bytes} {addr : Addr}
    (ctx : TreeCtx H p skSeed pubSeed layer tree N) (hth : p.tree_height < 31) (h3 : 3 ≤ p.tree_height)
    (hK : p.bds_k ≤ p.tree_height) (ha : IsSub addr layer tree) {s : BdsState} (b : BuildInv p N s.nextLeaf s)
    (hle : s.nextLeaf ≤ 2 ^ p.tree_height) :
    ∃ s', bdsStateUpdate H p s skSeed pubSeed addr = some s' ∧ BuildInv p N s'.nextLeaf s' ∧
      s'.nextLeaf = min (s.nextLeaf + 1) (2 ^ p.tree_height) ∧
      s'.leaves = s.leaves + (if s.nextLeaf = 2 ^ p.tree_height then 0 else 1) ∧
      (s'.nextLeaf < 2 ^ p.tree_height → s'.auth[p.tree_height - 1]? = s.auth[p.tree_height - 1]?) := by
  rw [bdsStateUpdate, Nat.one_shiftLeft]
  by_cases hc : s.nextLeaf = 2 ^ p.tree_height
  · rw [if_pos hc]
    exact ⟨s, rfl, b, by omega, by rw [if_pos hc]; rfl, fun _ => rfl⟩
  · rw [if_neg hc]
    obtain ⟨s1, lt', ots', nd', e1, b1, a1, a2, a3, sm1, l1, fr1⟩ := addLeaf_eq ctx hth h3 hK (by omega) b ha.ltree ha.ots ha.node
    rw [e1]
    simp only [Option.bind_eq_bind, Option.bind_some]
    have h31 : 2 ^ p.tree_height ≤ 2 ^ 31 := Nat.pow_le_pow_right (by omega) (by omega)
    refine ⟨_, rfl, ?_, ?_, by rw [if_neg hc]; exact l1, fun h => fr1 (by simp only [sm1.nextLeaf] at h; exact h)⟩
    · have hn : s1.nextLeaf = s.nextLeaf := sm1.nextLeaf
      simp only [hn]
      obtain ⟨L, hr, hs⟩ := b1.stack
      refine ⟨{ b1.shape with next_lt := by simp only; omega }, ⟨L, ⟨hr.off, hr.stack, hr.levels⟩, hs⟩, ?_⟩
      intro i r hi hle'
      have := b1.stored i r hi hle'
      exact ⟨this.auth, this.inst, this.retain⟩
    · have hn : s1.nextLeaf = s.nextLeaf := sm1.nextLeaf
      simp only [hn]
      omega

/-- A state with which the traversal keeps its deadlines: the current leaf is `φ`. -/
def Ready (p : Params) (N : Nat → Nat → Bytes) (base : List (Bytes × Nat)) (φ : Nat) (s : BdsState) : Prop :=
  ∃ pr seg, TreeInv p N base φ pr seg s ∧ InTime p.insts (p.insts / 2) pr φ 0 ∧ Active p.insts p.tree_height pr φ

theorem Ready.start {N : Nat → Nat → Bytes} {base : List (Bytes × Nat)} {s : BdsState}
    (h : TreeInv p N base 0 (fun i => 2 ^ i) (fun _ => []) s) : Ready p N base 0 s :=
  ⟨_, _, h, fun _ _ h => absurd h (lt_irrefl _), fun _ _ h => absurd h (lt_irrefl _)⟩

theorem Ready.same_work {N : Nat → Nat → Bytes} {base : List (Bytes × Nat)} {φ : Nat} {pr : Nat → Nat}
    {seg seg' : Nat → List (Bytes × Nat)} {pr' : Nat → Nat} {s s' : BdsState} (h : TreeInv p N base φ pr seg s)
    (sm : Same s s') (w : WorkInv p N base φ pr' seg' s') : TreeInv p N base φ pr' seg' s' :=
  ⟨w, by rw [sm.auth]; exact h.auth, by rw [sm.keep]; exact h.keep, by
    intro i r h1 h2 h3; rw [sm.retain]; exact h.retain i r h1 h2 h3⟩

/-- `bds_round` followed by `insts / 2` updates. -/
theorem Ready.step {skSeed pubSeed : Bytes} {layer tree : Nat} {N : Nat → Nat → Bytes} {addr : Addr}
    (ctx : TreeCtx H p skSeed pubSeed layer tree N) (hth : p.tree_height < 31)
    (hu : min p.insts (p.tree_height - 2) ≤ 2 * (p.insts / 2)) (ha : IsSub addr layer tree)
    {base : List (Bytes × Nat)} {φ : Nat} {s : BdsState} (r : Ready p N base φ s) (hφ : φ + 1 < 2 ^ p.tree_height) :
    ∃ s1 s2 n, bdsRound H p s φ skSeed pubSeed addr = some s1 ∧
      bdsTreehashUpdate H p s1 (p.insts / 2) skSeed pubSeed addr = some (s2, charToUnsigned (p.insts / 2 - n)) ∧
      Ready p N base (φ + 1) s2 ∧ n ≤ p.insts / 2 ∧ s2.nextLeaf = s.nextLeaf ∧
      s2.leaves = s.leaves + (if φ % 2 = 0 then 1 else 0) + n := by
  obtain ⟨pr, seg, ti, hin, hac⟩ := r
  have hn := ti.work.nested
  have hdone : ∀ i < p.insts, 2 ^ (i + 1) ∣ φ + 1 → pr i = 2 ^ i := fun i hi hd => done_at_deadline hn hin hi hd
  obtain ⟨s1, e1, t1, n1, l1⟩ := bdsRound_eq ctx hth ha ti hφ hdone
  obtain ⟨n, pr', seg', s2, e2, pk, w2, hle, hor, sm, l2⟩ := bdsTreehashUpdate_eq ctx hth ha (p.insts / 2) t1.work
  refine ⟨s1, s2, n, e1, e2, ⟨pr', seg', Ready.same_work t1 sm w2, ?_, pk.active (hac.restart hdone)⟩, hle, ?_, ?_⟩
  · rcases hor with h | h
    · have h1 := InTime.restart hu hn hac hin
      apply pk.inTime hn.restart
      rw [Nat.zero_add, h]
      exact h1
    · intro i hi hlt
      rw [h i hi] at hlt
      exact absurd hlt (lt_irrefl _)
  · rw [sm.nextLeaf, n1]
  · rw [l2, l1]

end Xmss
