import Verif.Proof.TraceRelMt
import Verif.Proof.MtKeygen
/-
The hash calls of key generation in the fast implementation.
-/
namespace Xmss
open Tr Sched
open Calls (rep)

variable {H : Bytes → Bytes} {p : Params}

/-- Heights on the stack, top first. -/
def lvls (s : BdsState) : List Nat := (s.stacklevels.take s.stackoffset).reverse

theorem storeNode_lvls {s s1 : BdsState} {idx nh : Nat} {x : Bytes} (h : storeNode p s idx nh x = some s1) : lvls s1 = lvls s := by
  obtain ⟨a, b, _, _⟩ := storeNode_keeps h
  rw [lvls, lvls, a, b]

theorem lvls_top {s : BdsState} {l : Nat} (h0 : 0 < s.stackoffset) (h : s.stacklevels[s.stackoffset - 1]? = some l) :
    lvls s = l :: (s.stacklevels.take (s.stackoffset - 1)).reverse := by
  obtain ⟨k, hk⟩ : ∃ k, s.stackoffset = k + 1 := ⟨s.stackoffset - 1, by omega⟩
  rw [hk, Nat.add_sub_cancel] at h
  rw [lvls, hk, Nat.add_sub_cancel, List.take_succ, h]
  simp

theorem lvls_push {s : BdsState} {l : Nat} (h : s.stackoffset < s.stacklevels.length) (s1 : BdsState)
    (h1 : s1.stacklevels = s.stacklevels.set s.stackoffset l) (h2 : s1.stackoffset = s.stackoffset + 1) : lvls s1 = l :: lvls s := by
  rw [lvls_top (l := l) (by omega) (by rw [h1, h2, Nat.add_sub_cancel, List.getElem?_set_self h]), h1, h2, Nat.add_sub_cancel,
    List.take_set_of_le (le_refl _), lvls]

theorem bind_inv {α β : Type} {t : Tr α} {f : α → Tr β} {b : β} {l : List Nat} (h : (t >>= f) = mk b l) :
    ∃ a l1 l2, t = mk a l1 ∧ f a = mk b l2 ∧ l = l1 ++ l2 := by
  rcases tr_cases t with rfl | ⟨a, l1, rfl⟩
  · cases h
  · rw [bind_mk] at h
    rcases tr_cases (f a) with e | ⟨b', l2, e⟩
    · rw [e] at h; cases h
    · rw [e, tell_mk] at h
      cases h
      exact ⟨a, l1, l2, rfl, e, rfl⟩

theorem opt_inv {α β : Type} {o : Option α} {f : α → Tr β} {b : β} {l : List Nat} (h : (Tr.opt o >>= f) = mk b l) :
    ∃ a, o = some a ∧ f a = mk b l := by
  cases o with
  | none => cases h
  | some a =>
    rw [opt_some, bind_mk, tell_nil] at h
    exact ⟨a, rfl, h⟩

theorem mk_inv {α β : Type} {a : α} {k : List Nat} {f : α → Tr β} {b : β} {l : List Nat} (h : (mk a k >>= f) = mk b l) :
    ∃ l2, f a = mk b l2 ∧ l = k ++ l2 := by
  obtain ⟨a', l1, l2, e, h1, h2⟩ := bind_inv h
  cases e
  exact ⟨l2, h1, h2⟩

theorem pure_inv {α : Type} {a b : α} {l : List Nat} (h : (pure a : Tr α) = mk b l) : a = b ∧ l = [] := by
  cases h; exact ⟨rfl, rfl⟩

theorem opt_end {α : Type} {o : Option α} {b : α} {l : List Nat} (h : Tr.opt o = mk b l) : o = some b ∧ l = [] := by
  cases o with
  | none => cases h
  | some a => cases h; exact ⟨rfl, rfl⟩

theorem mergeLoopT_calls (ps : Bytes) (idx : Nat) : ∀ (fuel : Nat) (s : BdsState) (a : Addr) (r : BdsState × Addr) (l : List Nat)
    (h : Nat) (hs : List Nat), lvls s = h :: hs → s.stackoffset ≤ s.stacklevels.length → s.stackoffset ≤ fuel →
    mergeLoopT H p ps idx fuel s a = mk r l →
    l = rep (mergeCount h hs) (Calls.h p) ∧ lvls r.1 = mergeHeights h hs ∧ r.1.stackoffset ≤ r.1.stacklevels.length
  | 0, s, a, r, l, h, hs, e, hb, hf, hr => by
    have : s.stackoffset = 0 := by omega
    simp [lvls, this] at e
  | fuel + 1, s, a, r, l, h, hs, e, hb, hf, hr => by
    have hlen : (lvls s).length = s.stackoffset := by simp [lvls]; omega
    rw [mergeLoopT] at hr
    by_cases h1 : s.stackoffset ≤ 1
    · rw [if_pos h1] at hr
      cases hr
      rw [e] at hlen
      have : hs = [] := List.eq_nil_of_length_eq_zero (by simp at hlen; omega)
      subst this
      exact ⟨rfl, e, hb⟩
    · rw [if_neg h1] at hr
      obtain ⟨l1, hg1, hr⟩ := opt_inv hr
      obtain ⟨l2, hg2, hr⟩ := opt_inv hr
      have e1 := lvls_top (by omega) hg1
      have e2 : (s.stacklevels.take (s.stackoffset - 1)).reverse = l2 :: (s.stacklevels.take (s.stackoffset - 2)).reverse := by
        have := lvls_top (s := { s with stackoffset := s.stackoffset - 1 }) (l := l2) (by simp; omega)
          (by simp only; rw [show s.stackoffset - 1 - 1 = s.stackoffset - 2 by omega, hg2])
        simp only [lvls, show s.stackoffset - 1 - 1 = s.stackoffset - 2 by omega] at this
        exact this
      rw [e, e2] at e1
      obtain ⟨rfl, rfl⟩ : h = l1 ∧ hs = _ := by simpa using e1
      by_cases h2 : h = l2
      · subst h2
        rw [if_neg (by simp)] at hr
        obtain ⟨top, ht, hr⟩ := opt_inv hr
        obtain ⟨s1, hsn, hr⟩ := opt_inv hr
        obtain ⟨q1, q2, q3, _⟩ := storeNode_keeps hsn
        obtain ⟨left, hl, hr⟩ := opt_inv hr
        rw [thashHT_eq] at hr
        obtain ⟨l', hr', rfl⟩ := mk_inv hr
        obtain ⟨st, hst, hr⟩ := opt_inv hr'
        obtain ⟨lv, hlv, hr⟩ := opt_inv hr
        obtain ⟨hlt, rfl⟩ := setA_inv hlv
        have key := mergeLoopT_calls ps idx fuel _ _ _ _ (h + 1) ((s.stacklevels.take (s.stackoffset - 2)).reverse) ?_ ?_ ?_ hr
        · rw [mergeCount, mergeHeights, if_pos rfl, if_pos rfl, rep_succ, key.1]
          exact ⟨rfl, key.2⟩
        · have hx := lvls_push (s := { s1 with stackoffset := s1.stackoffset - 2 }) (l := h + 1) hlt
            { s1 with stack := st, stacklevels := s1.stacklevels.set (s1.stackoffset - 2) (h + 1), stackoffset := s1.stackoffset - 1 }
            rfl (by simp only; omega)
          rw [hx]
          simp only [lvls, q1, q2]
        · simp only [List.length_set]; rw [q1, q2]; omega
        · simp only; rw [q1]; omega
      · rw [if_pos h2] at hr
        cases hr
        rw [mergeCount, mergeHeights, if_neg h2, if_neg h2]
        exact ⟨rfl, e, hb⟩

theorem addLeafT_calls {sk ps : Bytes} {idx : Nat} {s : BdsState} {lt o n : Addr} {r : BdsState × Addr × Addr × Addr} {l : List Nat}
    (hb : s.stackoffset ≤ s.stacklevels.length) (h : addLeafT H p sk ps idx s lt o n = mk r l) :
    l = Calls.leaf p ++ rep (mergeCount 0 (lvls s)) (Calls.h p) ∧ lvls r.1 = mergeHeights 0 (lvls s) ∧
      r.1.stackoffset ≤ r.1.stacklevels.length := by
  rw [addLeafT, genLeafWotsT_eq] at h
  obtain ⟨l1, h', rfl⟩ := mk_inv h
  obtain ⟨st, hst, h⟩ := opt_inv h'
  obtain ⟨lv, hlv, h⟩ := opt_inv h
  obtain ⟨hlt, rfl⟩ := setA_inv hlv
  obtain ⟨s1, hs1, h⟩ := opt_inv h
  have k1 : s1.stacklevels = s.stacklevels.set s.stackoffset 0 ∧ s1.stackoffset = s.stackoffset + 1 := by
    split at hs1
    · obtain ⟨x, _, hs1⟩ := Option.bind_eq_some_iff.mp hs1
      obtain ⟨t, _, hs1⟩ := Option.bind_eq_some_iff.mp hs1
      cases hs1; exact ⟨rfl, rfl⟩
    · cases hs1; exact ⟨rfl, rfl⟩
  obtain ⟨r', l2, l3, hm, h4, rfl⟩ := bind_inv h
  obtain ⟨rfl, rfl⟩ := pure_inv h4
  have key := mergeLoopT_calls ps idx _ _ _ _ _ 0 (lvls s) (lvls_push hlt s1 k1.1 k1.2) (by rw [k1.1, k1.2, List.length_set]; omega) le_rfl hm
  rw [List.append_nil, key.1]
  exact ⟨rfl, key.2⟩

theorem addLeavesT_calls (sk ps : Bytes) : ∀ (k idx : Nat) (s : BdsState) (lt o n : Addr) (r : BdsState) (l : List Nat),
    s.stackoffset ≤ s.stacklevels.length → addLeavesT H p sk ps k idx s lt o n = mk r l → l = shLoop p k (lvls s)
  | 0, _, _, _, _, _, _, _, _, h => by cases h; rfl
  | k + 1, idx, s, lt, o, n, r, l, hb, h => by
    rw [addLeavesT] at h
    obtain ⟨r1, l1, l2, h1, h2, rfl⟩ := bind_inv h
    obtain ⟨a1, a2, a3⟩ := addLeafT_calls hb h1
    rw [shLoop, addLeavesT_calls sk ps k _ _ _ _ _ _ _ a3 h2, a1, a2]

theorem treehashInitT_eq (s : BdsState) (sk ps : Bytes) (a : Addr) :
    treehashInitT H p s sk ps a = lift (Calls.keygen p) (treehashInit H p s sk ps a) := by
  rcases tr_cases (treehashInitT H p s sk ps a) with e | ⟨r, l, e⟩
  · have := treehashInitT_val (H := H) (p := p) s sk ps a
    rw [e] at this
    rw [e, ← this]; rfl
  · have := treehashInitT_val (H := H) (p := p) s sk ps a
    rw [e] at this
    rw [e, ← this]
    rw [treehashInitT] at e
    obtain ⟨w, l1, l2, h1, h2, rfl⟩ := bind_inv e
    obtain ⟨root, _, h2⟩ := opt_inv h2
    obtain ⟨-, rfl⟩ := pure_inv h2
    rw [addLeavesT_calls sk ps _ _ _ _ _ _ _ _ (Nat.zero_le _) h1]
    simp only [lvls, List.take_zero, List.reverse_nil, Nat.one_shiftLeft, shLoop_full, List.append_nil]
    rfl

/-- A state as key generation leaves it. -/
structure FreshSt (p : Params) (s : BdsState) : Prop where
  shape : Shape p s
  off : s.stackoffset = 0
  next : s.nextLeaf = 0
  done : ∀ t ∈ s.treehash, t.completed ≠ 0

theorem FreshSt.of {N : Nat → Nat → Bytes} {s0 s : BdsState} (h : TreeInv p N [] 0 (fun i => 2 ^ i) (fun _ => []) s)
    (hn : s.nextLeaf = s0.nextLeaf) (h0 : s0.nextLeaf = 0 := by rfl) : FreshSt p s where
  shape := h.work.shape
  off := by
    rw [h.work.stack.off]
    have : ∀ M, segs M (fun _ => ([] : List (Bytes × Nat))) = [] := by
      intro M
      induction M with
      | zero => rfl
      | succ M ih => simp [segs, ih]
    rw [this]; rfl
  next := by rw [hn, h0]
  done := by
    intro t ht
    obtain ⟨i, hi⟩ := List.mem_iff_getElem?.mp ht
    have hl : i < s.treehash.length := (List.getElem?_eq_some_iff.mp hi).1
    rw [h.work.shape.insts_len] at hl
    obtain ⟨u, hu, ok⟩ := h.work.inst i hl
    rw [hi] at hu
    cases hu
    exact (ok.full rfl).1

theorem FreshSt.rel {b : Prop} {s s' : BdsState} (h : Shape p s) (h' : Shape p s') (o : s.stackoffset = 0) (o' : s'.stackoffset = 0)
    (n : s.nextLeaf = 0) (n' : s'.nextLeaf = 0) (hd : b → FreshSt p s ∧ FreshSt p s') : CtlP b s s' where
  so := by rw [o, o']
  lv := fun i hi => by omega
  stack_len := by rw [h.stack_len, h'.stack_len]
  levels_len := by rw [h.levels_len, h'.levels_len]
  auth_len := by rw [h.auth_len, h'.auth_len]
  keep_len := by rw [h.keep_len, h'.keep_len]
  insts_len := by rw [h.insts_len, h'.insts_len]
  retain_len := by rw [h.retain_len, h'.retain_len]
  next := by rw [n, n']
  insts := fun hb i t t' ht ht' => by
    have d := (hd hb).1.done t (List.mem_of_getElem? ht)
    have d' := (hd hb).2.done t' (List.mem_of_getElem? ht')
    exact ⟨⟨fun x => absurd x d, fun x => absurd x d'⟩, fun x => absurd x d, (h.insts_mem t (List.mem_of_getElem? ht)).2.2.2.1,
      (h'.insts_mem t' (List.mem_of_getElem? ht')).2.2.2.1⟩

/-- Key generation from buffers with any content. -/
theorem fastXmssKeypairT_eq (f : Fast1 p) (hH : ∀ x, (H x).length = p.n) (pk sk sA sB sC : Bytes)
    (hpk : pk.length = 2 * p.n) (hsk : sk.length = p.sk_bytes)
    (hA : sA.length = p.n) (hB : sB.length = p.n) (hC : sC.length = p.n) :
    ∃ s, FreshSt p s ∧ Ready p ((suiteOf p H).node sA sC 0 0) [] 0 s ∧
    fastXmssKeypairT H p pk sk (sA ++ sB ++ sC) =
      mk ((suiteOf p H).root sA sC ++ sC, (Key.mk sA sB ((suiteOf p H).root sA sC) sC).fast p 0 [s] []) (Calls.keygen p) := by
  have g := f.good
  have hth := g.th_lt
  have hd := f.d
  have hib := f.ib
  have hsk' := f.sk
  rw [fastSkBytes, hd] at hsk'
  obtain ⟨states, sigs, e, sh, _, _⟩ := deserialize_any (p := p) sk (by rw [hsk, f.sk])
  have hst : states.length = 1 := by rw [sh.states_len, hd]
  obtain ⟨s0, rfl⟩ := List.length_eq_one_iff.mp hst
  have hsg : sigs = [] := List.eq_nil_of_length_eq_zero (by rw [sh.sigs_len, hd])
  subst hsg
  have sh0 := sh.states_mem s0 (by simp)
  have sh1 : Shape p { s0 with stackoffset := 0, nextLeaf := 0 } :=
    ⟨sh0.stack_len, sh0.stack_mem, sh0.levels_len, sh0.levels_mem, sh0.auth_len, sh0.auth_mem, sh0.keep_len, sh0.keep_mem,
      sh0.insts_len, sh0.insts_mem, sh0.retain_len, sh0.retain_mem, by simp, by simp⟩
  obtain ⟨s', e1, ti, hn, _⟩ := treehashInit_eq (treeCtx_suite g hH sA sC 0 0) hth f.th f.k (addr := Addr.zero)
    ⟨rfl, rfl, rfl⟩ sh1 rfl
  refine ⟨s', FreshSt.of ti hn, Ready.start ti, ?_⟩
  have hroot : (suiteOf p H).node sA sC 0 0 p.tree_height 0 = (suiteOf p H).root sA sC := by
    have hd' : (suiteOf p H).d = 1 := hd
    rw [Rfc.Suite.root, Rfc.Suite.treeRoot, g.hp_eq, hd']
  rw [hroot] at e1
  set T := (suiteOf p H).root sA sC with hT
  have hTl : T.length = p.n := node_length g hH _ _ _ _ _ _
  have hxl := ext1_length ti.work.shape
  obtain ⟨k0, k1, k2, k3, k4, k5, rfl, i0, i1, i2, i3, i4, i5⟩ : ∃ k0 k1 k2 k3 k4 k5 : Bytes, sk = k0 ++ k1 ++ k2 ++ k3 ++ k4 ++ k5 ∧
      k0.length = p.index_bytes ∧ k1.length = p.n ∧ k2.length = p.n ∧ k3.length = p.n ∧ k4.length = p.n ∧
      k5.length = bdsStateBytes p := by
    refine ⟨sk.take p.index_bytes, (sk.drop p.index_bytes).take p.n, (sk.drop (p.index_bytes + p.n)).take p.n,
      (sk.drop (p.index_bytes + p.n + p.n)).take p.n, (sk.drop (p.index_bytes + p.n + p.n + p.n)).take p.n,
      sk.drop (p.index_bytes + p.n + p.n + p.n + p.n), ?_, ?_, ?_, ?_, ?_, ?_, ?_⟩
    · rw [← List.take_add, ← List.take_add, ← List.take_add, ← List.take_add, List.take_append_drop]
    all_goals simp; omega
  obtain ⟨q0, q1, rfl, j0, j1⟩ : ∃ q0 q1 : Bytes, pk = q0 ++ q1 ∧ q0.length = p.n ∧ q1.length = p.n :=
    ⟨_, _, (List.take_append_drop p.n pk).symm, by simp; omega, by simp; omega⟩
  rw [fastXmssKeypairT, if_neg (by omega), e]
  set Z : Bytes := [0, 0, 0, 0] with hZ
  have hZl : Z.length = p.index_bytes := by rw [hib]; rfl
  have w1 : wr (k0 ++ k1 ++ k2 ++ k3 ++ k4 ++ k5) 0 Z = some (Z ++ k1 ++ k2 ++ k3 ++ k4 ++ k5) := by
    rw [wr_mid (buf := k0 ++ k1 ++ k2 ++ k3 ++ k4 ++ k5) (off := 0) (y := k0) [] (k1 ++ k2 ++ k3 ++ k4 ++ k5) (by simp) rfl (by omega)]; simp
  have r1 : rd (sA ++ sB ++ sC) 0 (2 * p.n) = some (sA ++ sB) := rd_mid [] sC (by simp) rfl (by simp [hA, hB]; omega)
  have w2 : wr (Z ++ k1 ++ k2 ++ k3 ++ k4 ++ k5) p.index_bytes (sA ++ sB) = some (Z ++ sA ++ sB ++ k3 ++ k4 ++ k5) := by
    rw [wr_mid (y := k1 ++ k2) Z (k3 ++ k4 ++ k5) (by simp) hZl.symm (by simp; omega)]; simp
  have r2 : rd (sA ++ sB ++ sC) (2 * p.n) p.n = some sC := rd_mid (sA ++ sB) [] (by simp) (by simp [hA, hB]; omega) hC.symm
  have w3 : wr (Z ++ sA ++ sB ++ k3 ++ k4 ++ k5) (p.index_bytes + 3 * p.n) sC = some (Z ++ sA ++ sB ++ k3 ++ sC ++ k5) :=
    wr_mid (y := k4) (Z ++ sA ++ sB ++ k3) k5 rfl (by simp only [List.length_append]; omega) (by omega)
  have r3 : rd (Z ++ sA ++ sB ++ k3 ++ sC ++ k5) (p.index_bytes + 3 * p.n) p.n = some sC :=
    rd_mid (Z ++ sA ++ sB ++ k3) k5 rfl (by simp only [List.length_append]; omega) hC.symm
  have r4 : rd (Z ++ sA ++ sB ++ k3 ++ sC ++ k5) p.index_bytes p.n = some sA :=
    rd_mid Z (sB ++ k3 ++ sC ++ k5) (by simp) hZl.symm hA.symm
  have w4 : wr (q0 ++ q1) p.n sC = some (q0 ++ sC) := by
    rw [wr_mid (y := q1) q0 [] (by simp) j0.symm (by omega)]; simp
  have w5 : wr (q0 ++ sC) 0 T = some (T ++ sC) := by
    rw [wr_mid (buf := q0 ++ sC) (off := 0) (y := q0) [] sC (by simp) rfl (by omega)]; simp
  have r5 : rd (T ++ sC) 0 p.n = some T := rd_mid [] sC (by simp) rfl hTl.symm
  have w6 : wr (Z ++ sA ++ sB ++ k3 ++ sC ++ k5) (p.index_bytes + 2 * p.n) T = some (skHead Z sA sB T sC ++ k5 ++ []) := by
    rw [wr_mid (y := k3) (Z ++ sA ++ sB) (sC ++ k5) (by simp) (by simp only [List.length_append]; omega) (by omega)]
    simp [skHead]
  have w7 := serialize_eq (p := p) (states := [s']) (sigs := []) (skHead Z sA sB T sC) k5 []
    (skHead_length hZl hA hB hTl hC) (by rw [hxl, i5])
  simp only [treehashInitT_eq]
  trs [List.getElem?_cons_zero, w1, r1, w2, r2, w3, r3, w4, r4, e1, w5, r5, w6, w7, Key.fast]
  have hz : Z = Rfc.toByte 0 p.index_bytes := by rw [hib]; rfl
  rw [hz, List.append_nil]


/-- The hash calls for `k` layers from layer `i`: the tree, and the signature of its root on the layer above. -/
def layerCalls (H : Bytes → Bytes) (p : Params) (skSeed pubSeed : Bytes) : Nat → Nat → List Nat
  | 0, _ => []
  | k + 1, i => Calls.keygen p ++ wotsCalls p H ((suiteOf p H).node skSeed pubSeed i 0 p.tree_height 0) ++
      layerCalls H p skSeed pubSeed k (i + 1)

theorem fastKeypairLoopT_eq (g : p.Good) (hH : ∀ x, (H x).length = p.n) (h3 : 3 ≤ p.tree_height) (hK : p.bds_k ≤ p.tree_height)
    {skSeed pubSeed : Bytes} {st0 : List BdsState} {sg0 : List Bytes} (sh : ∀ s ∈ st0, Shape p s ∧ s.stackoffset = 0 ∧ s.nextLeaf = 0) :
    ∀ (k i : Nat) (states : List BdsState) (sigs : List Bytes) (addr : Addr), i + k < st0.length → i + k ≤ sg0.length →
      GenInv H p skSeed pubSeed st0 sg0 i states sigs addr → (∀ j < i, ∃ s, states[j]? = some s ∧ FreshSt p s) →
      ∃ states' sigs' addr', fastKeypairLoopT H p skSeed pubSeed k i states sigs addr = mk (states', sigs', addr') (layerCalls H p skSeed pubSeed k i) ∧
        GenInv H p skSeed pubSeed st0 sg0 (i + k) states' sigs' addr' ∧ (∀ j < i + k, ∃ s, states'[j]? = some s ∧ FreshSt p s) := by
  intro k
  induction k with
  | zero => intro i states sigs addr _ _ gi gf; exact ⟨states, sigs, addr, rfl, gi, gf⟩
  | succ k ih =>
    intro i states sigs addr hk hk' gi gf
    have hi : i < st0.length := by omega
    obtain ⟨hsh, hso, hno⟩ := sh st0[i] (List.getElem_mem hi)
    obtain ⟨s', e1, ti, hn, _⟩ := treehashInit_eq (treeCtx_suite g hH skSeed pubSeed i 0) g.th_lt h3 hK (addr := addr)
      ⟨gi.addr.h0, gi.addr.h1, gi.addr.h2⟩ hsh hso
    have ha : IsOts (setLayerAddr addr (i + 1)) (i + 1) 0 0 := ⟨rfl, gi.addr.h1, gi.addr.h2, gi.addr.h3, gi.addr.h4⟩
    obtain ⟨w1, w2⟩ := wotsSign_eq (H := H) g skSeed pubSeed (msg := (suiteOf p H).node skSeed pubSeed i 0 p.tree_height 0)
      (node_length g hH _ _ _ _ _ _) _ ha
    have hsl := gi.sigs_len
    have hstl := gi.states_len
    have hcur : states[i]? = some st0[i] := by rw [gi.rest i (Nat.le_refl _), List.getElem?_eq_getElem hi]
    obtain ⟨a, b, c, e2, gi', gf'⟩ := ih (i + 1) (states.set i s')
      (sigs.set i (wotsSign H p ((suiteOf p H).node skSeed pubSeed i 0 p.tree_height 0) skSeed pubSeed (setLayerAddr addr (i + 1))).1.flatten)
      (wotsSign H p ((suiteOf p H).node skSeed pubSeed i 0 p.tree_height 0) skSeed pubSeed (setLayerAddr addr (i + 1))).2
      (by omega) (by omega) (by
        refine ⟨by rw [List.length_set]; exact hstl, by rw [List.length_set]; exact hsl, ?_, ?_, ?_, w2⟩
        · intro j hj
          by_cases hji : j = i
          · subst hji
            exact ⟨s', by rw [List.getElem?_set_self (by omega)], ti⟩
          · rw [List.getElem?_set_ne (by omega)]
            exact gi.cur j (by omega)
        · intro j hj
          rw [List.getElem?_set_ne (by omega)]
          exact gi.rest j (by omega)
        · intro j hj hjl
          rw [List.length_set] at hjl
          by_cases hji : j = i
          · subst hji
            rw [List.getElem?_set_self (by omega), w1]
          · rw [List.getElem?_set_ne (by omega)]
            exact gi.sigs j (by omega) hjl) (by
        intro j hj
        by_cases hji : j = i
        · subst hji
          exact ⟨s', by rw [List.getElem?_set_self (by omega)], FreshSt.of ti hn hno⟩
        · rw [List.getElem?_set_ne (by omega)]
          exact gf j (by omega))
    refine ⟨a, b, c, ?_, by rw [show i + (k + 1) = i + 1 + k by omega]; exact gi', by rw [show i + (k + 1) = i + 1 + k by omega]; exact gf'⟩
    rw [fastKeypairLoopT, hcur]
    simp only [treehashInitT_eq]
    trs [e1]
    rw [wotsSignT_eq g (node_length g hH _ _ _ _ _ _)]
    trsimp
    rw [setA_some (by omega)]
    trsimp
    rw [e2, layerCalls, wotsCalls]
    trsimp

/-- Key generation from buffers with any content.  The states of the next trees keep what was in the secret key buffer,
but for two counters. -/
theorem fastXmssmtKeypairT_eq (f : FastMt p) (hH : ∀ x, (H x).length = p.n) (pk sk sA sB sC : Bytes)
    (hpk : pk.length = 2 * p.n) (hsk : sk.length = p.sk_bytes)
    (hA : sA.length = p.n) (hB : sB.length = p.n) (hC : sC.length = p.n) :
    ∃ st0 sg0 states sigs, deserializeStates p sk = some (st0, sg0) ∧ 
      (∀ z : Nat → Option Bytes, (∀ i x, z i = some x → (st0[p.d + i]?.bind fun s => s.auth[p.tree_height - 1]?) = some x) →
        MtInv H p sA sC z 0 states sigs) ∧
      (∀ k, p.d ≤ k → states[k]? = st0[k]?.map fun s => { s with stackoffset := 0, nextLeaf := 0 }) ∧
      (∀ k < p.d, ∃ s, states[k]? = some s ∧ FreshSt p s) ∧ ExtShape p states sigs ∧
      fastXmssmtKeypairT H p pk sk (sA ++ sB ++ sC) =
        mk ((suiteOf p H).root sA sC ++ sC, (Key.mk sA sB ((suiteOf p H).root sA sC) sC).fast p 0 states sigs)
        (layerCalls H p sA sC (p.d - 1) 0 ++ Calls.keygen p) := by
  have g := f.good
  have hth := g.th_lt
  have hd := f.d
  have hth4 := f.th
  have hK0 := f.k
  have hsk' := f.sk
  rw [fastSkBytes] at hsk'
  obtain ⟨st0, sg0, e, sh, _, _⟩ := deserialize_any (p := p) sk (by rw [hsk, f.sk])
  have hst := sh.states_len
  have hsg := sh.sigs_len
  set st1 := st0.map (fun s => { s with stackoffset := 0, nextLeaf := 0 }) with hst1
  have hl1 : st1.length = 2 * p.d - 1 := by rw [hst1, List.length_map]; exact hst
  have sh1 : ∀ s ∈ st1, Shape p s ∧ s.stackoffset = 0 ∧ s.nextLeaf = 0 := by
    intro s hs
    obtain ⟨t, ht, rfl⟩ := List.mem_map.mp hs
    exact ⟨(Shape.fresh (N := fun _ _ => []) (sh.states_mem t ht)).shape, rfl, rfl⟩
  obtain ⟨sta, sga, ad, e2, gi, gf⟩ := fastKeypairLoopT_eq (H := H) g hH (by omega) (by omega) (skSeed := sA) (pubSeed := sC) (sg0 := sg0) sh1 (p.d - 1) 0 st1 sg0
    (setLayerAddr Addr.zero 0) (by omega) (by omega)
    ⟨rfl, rfl, fun _ h => by omega, fun _ _ => rfl, fun _ h => by omega, ⟨rfl, rfl, rfl, rfl, rfl⟩⟩ (fun _ h => absurd h (Nat.not_lt_zero _))
  rw [Nat.zero_add] at gi gf
  have hi : p.d - 1 < st1.length := by omega
  obtain ⟨hsh, hso, hno⟩ := sh1 st1[p.d - 1] (List.getElem_mem hi)
  obtain ⟨s', e1, ti, hn, _⟩ := treehashInit_eq (treeCtx_suite g hH sA sC (p.d - 1) 0) hth (by omega) (by omega) (addr := ad)
    ⟨gi.addr.h0, gi.addr.h1, gi.addr.h2⟩ hsh hso
  have hcur : sta[p.d - 1]? = some st1[p.d - 1] := by rw [gi.rest _ (Nat.le_refl _), List.getElem?_eq_getElem hi]
  have hla := gi.states_len
  have hsa := gi.sigs_len
  have hmt : ∀ z : Nat → Option Bytes, (∀ i x, z i = some x → (st0[p.d + i]?.bind fun s => s.auth[p.tree_height - 1]?) = some x) →
      MtInv H p sA sC z 0 (sta.set (p.d - 1) s') sga := by
    intro z hz
    refine ⟨fun _ j => 2 ^ j, fun _ => 0, by rw [List.length_set]; omega, by omega, ?_, Plan.init _ _ _ (by omega)⟩
    intro k hk
    have z1 : ∀ j, 0 / B p.tree_height j = 0 := fun j => Nat.zero_div _
    have z2 : ∀ j, leafAt p.tree_height 0 j = 0 := fun j => by rw [leafAt, Nat.zero_div, Nat.zero_mod]
    have hc : ∃ s, (sta.set (p.d - 1) s')[k]? = some s ∧
        TreeInv p ((suiteOf p H).node sA sC k 0) [] 0 (fun i => 2 ^ i) (fun _ => []) s := by
      by_cases hkd : k = p.d - 1
      · subst hkd
        exact ⟨s', by rw [List.getElem?_set_self (by omega)], ti⟩
      · rw [List.getElem?_set_ne (by omega)]
        exact gi.cur k (by omega)
    obtain ⟨s, h1, h2⟩ := hc
    refine ⟨s, h1, ⟨[], fun _ => [], by rw [z1, z2]; exact h2⟩, fun hk1 => ?_⟩
    have hdk : p.d + k < st0.length := by omega
    refine ⟨{ st0[p.d + k] with stackoffset := 0, nextLeaf := 0 }, ?_, rfl, Nat.zero_le _, Shape.fresh (sh.states_mem _ (List.getElem_mem _)), ?_, ?_⟩
    · rw [List.getElem?_set_ne (by omega), gi.rest _ (by omega), hst1, List.getElem?_map, List.getElem?_eq_getElem hdk]; rfl
    · intro x hx _
      have h5 := hz k x hx
      rw [List.getElem?_eq_getElem hdk, Option.bind_some] at h5
      exact h5
    · rw [GoodSig, z1, z1, z2]
      exact gi.sigs k (by omega) (by omega)
  refine ⟨st0, sg0, _, _, e, hmt, ?_, ?_, (hmt (fun _ => none) (fun _ _ h => by cases h)).ext g hH, ?_⟩
  · intro k hk
    rw [List.getElem?_set_ne (by omega), gi.rest k (by omega), hst1, List.getElem?_map]
  · intro k hk
    by_cases hkd : k = p.d - 1
    · subst hkd
      exact ⟨s', by rw [List.getElem?_set_self (by omega)], FreshSt.of ti hn hno⟩
    · rw [List.getElem?_set_ne (by omega)]
      exact gf k (by omega)
  have shx := (hmt (fun _ => none) (fun _ _ h => by cases h)).ext g hH
  have hroot : (suiteOf p H).node sA sC (p.d - 1) 0 p.tree_height 0 = (suiteOf p H).root sA sC := by
    rw [Rfc.Suite.root, Rfc.Suite.treeRoot, g.hp_eq]; rfl
  rw [hroot] at e1
  set T := (suiteOf p H).root sA sC with hT
  have hTl : T.length = p.n := node_length g hH _ _ _ _ _ _
  have hxl := extBytes_length shx
  obtain ⟨k0, k1, k2, k3, k4, k5, rfl, i0, i1, i2, i3, i4, i5⟩ : ∃ k0 k1 k2 k3 k4 k5 : Bytes, sk = k0 ++ k1 ++ k2 ++ k3 ++ k4 ++ k5 ∧
      k0.length = p.index_bytes ∧ k1.length = p.n ∧ k2.length = p.n ∧ k3.length = p.n ∧ k4.length = p.n ∧
      k5.length = (2 * p.d - 1) * bdsStateBytes p + (p.d - 1) * p.wots_sig_bytes := by
    refine ⟨sk.take p.index_bytes, (sk.drop p.index_bytes).take p.n, (sk.drop (p.index_bytes + p.n)).take p.n,
      (sk.drop (p.index_bytes + p.n + p.n)).take p.n, (sk.drop (p.index_bytes + p.n + p.n + p.n)).take p.n,
      sk.drop (p.index_bytes + p.n + p.n + p.n + p.n), ?_, ?_, ?_, ?_, ?_, ?_, ?_⟩
    · rw [← List.take_add, ← List.take_add, ← List.take_add, ← List.take_add, List.take_append_drop]
    all_goals simp; omega
  obtain ⟨q0, q1, rfl, j0, j1⟩ : ∃ q0 q1 : Bytes, pk = q0 ++ q1 ∧ q0.length = p.n ∧ q1.length = p.n :=
    ⟨_, _, (List.take_append_drop p.n pk).symm, by simp; omega, by simp; omega⟩
  rw [fastXmssmtKeypairT, if_neg (by omega), e]
  obtain ⟨Z, hZ⟩ : ∃ Z : Bytes, Z = List.replicate p.index_bytes 0 := ⟨_, rfl⟩
  have hZl : Z.length = p.index_bytes := by rw [hZ, List.length_replicate]
  have w1 : wr (k0 ++ k1 ++ k2 ++ k3 ++ k4 ++ k5) 0 Z = some (Z ++ k1 ++ k2 ++ k3 ++ k4 ++ k5) := by
    rw [wr_mid (buf := k0 ++ k1 ++ k2 ++ k3 ++ k4 ++ k5) (off := 0) (y := k0) [] (k1 ++ k2 ++ k3 ++ k4 ++ k5) (by simp) rfl (by omega)]; simp
  have r1 : rd (sA ++ sB ++ sC) 0 (2 * p.n) = some (sA ++ sB) := rd_mid [] sC (by simp) rfl (by simp [hA, hB]; omega)
  have w2 : wr (Z ++ k1 ++ k2 ++ k3 ++ k4 ++ k5) p.index_bytes (sA ++ sB) = some (Z ++ sA ++ sB ++ k3 ++ k4 ++ k5) := by
    rw [wr_mid (y := k1 ++ k2) Z (k3 ++ k4 ++ k5) (by simp) hZl.symm (by simp; omega)]; simp
  have r2 : rd (sA ++ sB ++ sC) (2 * p.n) p.n = some sC := rd_mid (sA ++ sB) [] (by simp) (by simp [hA, hB]; omega) hC.symm
  have w3 : wr (Z ++ sA ++ sB ++ k3 ++ k4 ++ k5) (p.index_bytes + 3 * p.n) sC = some (Z ++ sA ++ sB ++ k3 ++ sC ++ k5) :=
    wr_mid (y := k4) (Z ++ sA ++ sB ++ k3) k5 rfl (by simp only [List.length_append]; omega) (by omega)
  have r3 : rd (Z ++ sA ++ sB ++ k3 ++ sC ++ k5) (p.index_bytes + 3 * p.n) p.n = some sC :=
    rd_mid (Z ++ sA ++ sB ++ k3) k5 rfl (by simp only [List.length_append]; omega) hC.symm
  have r4 : rd (Z ++ sA ++ sB ++ k3 ++ sC ++ k5) p.index_bytes p.n = some sA :=
    rd_mid Z (sB ++ k3 ++ sC ++ k5) (by simp) hZl.symm hA.symm
  have w4 : wr (q0 ++ q1) p.n sC = some (q0 ++ sC) := by
    rw [wr_mid (y := q1) q0 [] (by simp) j0.symm (by omega)]; simp
  have r6 : rd (q0 ++ sC) p.n p.n = some sC := rd_mid q0 [] (by simp) j0.symm hC.symm
  have w5 : wr (q0 ++ sC) 0 T = some (T ++ sC) := by
    rw [wr_mid (buf := q0 ++ sC) (off := 0) (y := q0) [] sC (by simp) rfl (by omega)]; simp
  have r5 : rd (T ++ sC) 0 p.n = some T := rd_mid [] sC (by simp) rfl hTl.symm
  have w6 : wr (Z ++ sA ++ sB ++ k3 ++ sC ++ k5) (p.index_bytes + 2 * p.n) T = some (skHead Z sA sB T sC ++ k5 ++ []) := by
    rw [wr_mid (y := k3) (Z ++ sA ++ sB) (sC ++ k5) (by simp) (by simp only [List.length_append]; omega) (by omega)]
    simp [skHead]
  have w7 := serialize_eq (p := p) (states := sta.set (p.d - 1) s') (sigs := sga) (skHead Z sA sB T sC) k5 []
    (skHead_length hZl hA hB hTl hC) (by rw [hxl, i5])
  rw [hst1] at e2
  rw [← hZ]
  simp only [treehashInitT_eq]
  trs [w1, r1, w2, r2, w3, r3, w4, r4, r6, e2, hcur, e1, w5, r5, w6, w7, Key.fast]
  have hz : Z = Rfc.toByte 0 p.index_bytes := by
    rw [hZ]
    unfold Rfc.toByte
    simp only [Nat.zero_div]
    rw [List.map_const', List.length_range]; rfl
  rw [hz, List.append_nil]

end Xmss
