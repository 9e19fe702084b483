import Verif.Proof.TraceInputs
import Verif.Proof.TraceFast
import Verif.Proof.TraceMap
import Verif.Proof.BdsBuild
/-
What the functions of the BDS traversal hash (Model/TraceFast): the invariants of Proof/Bds* give the values, these lemmas the calls.
-/
namespace Xmss
open Tr Sched

namespace HT
variable {α β : Type} {Q : Nat × Bytes → Prop}

/-- After a computation its value is known. -/
theorem bindV {t : TrG (Nat × Bytes) α} {f : α → TrG (Nat × Bytes) β} {R' : β → Prop} (h : HT Q t fun _ => True)
    (h' : ∀ a, val (lens t) = some a → HT Q (f a) R') : HT Q (t >>= f) R' := by
  refine bind (R := fun a => val (lens t) = some a) (fun a l e => ⟨?_, (h a l e).2⟩) h'
  rw [e]; rfl

/-- The same with the value given. -/
theorem bindE {t : TrG (Nat × Bytes) α} {f : α → TrG (Nat × Bytes) β} {R' : β → Prop} {a : α} (h : HT Q t fun _ => True)
    (hv : val (lens t) = some a) (h' : HT Q (f a) R') : HT Q (t >>= f) R' :=
  bindV h fun b hb => by rw [hv] at hb; cases hb; exact h'

theorem optE {o : Option α} {f : α → TrG (Nat × Bytes) β} {R' : β → Prop} {a : α} (hv : o = some a) (h' : HT Q (f a) R') :
    HT Q (Tr.opt o >>= f) R' := optBind fun b hb => by rw [hv] at hb; cases hb; exact h'

theorem any {t : TrG (Nat × Bytes) α} {R : α → Prop} (h : HT Q t R) : HT Q t fun _ => True := h.mono fun _ _ => trivial

theorem optAny {o : Option α} : HT Q (Tr.opt o) fun _ => True := opt fun _ _ => trivial

theorem pureAny {a : α} : HT Q (Pure.pure a : TrG (Nat × Bytes) α) fun _ => True := pure trivial
end HT

variable {H : Bytes → Bytes} {p : Params}

/-- The calls made for one leaf and for one node of the tree `N` at (layer, tree) satisfy `Q`. -/
structure CallCtx (H : Bytes → Bytes) (p : Params) (skSeed pubSeed : Bytes) (layer tree : Nat) (N : Nat → Nat → Bytes)
    (Q : Nat × Bytes → Prop) : Prop where
  leaf : ∀ lt ots i j k, i < 2 ^ p.tree_height → IsLtree lt layer tree j → IsOts ots layer tree k →
    HT Q (genLeafWotsT H p skSeed pubSeed (setLtreeAddr lt i) (setOtsAddr ots i)) fun _ => True
  node : ∀ a h q, h < p.tree_height → q < 2 ^ (p.tree_height - 1 - h) → IsTree a layer tree →
    HT Q (thashHT H p (N h (2 * q) ++ N h (2 * q + 1)) pubSeed (setTreeIndex (setTreeHeight a h) q)) fun _ => True

/-- The tree exists. -/
structure TreeIn (p : Params) (layer tree : Nat) : Prop where
  l : layer < p.d
  t : tree < 2 ^ (p.full_height - (layer + 1) * p.tree_height)

theorem callCtx_suite (g : p.Good) (hH : ∀ x, (H x).length = p.n) {skSeed pubSeed : Bytes} (hk1 : skSeed.length = p.n)
    (hs : pubSeed.length = p.n) {layer tree : Nat} (hin : TreeIn p layer tree) :
    CallCtx H p skSeed pubSeed layer tree ((suiteOf p H).node skSeed pubSeed layer tree) (TI.TreeQ H p skSeed pubSeed) where
  leaf := fun lt ots i j k hi hlt hots =>
    (TI.genLeafWots_ht (lt := setLtreeAddr lt i) (ots := setOtsAddr ots i) g hH hk1 hs ⟨hin.l, hin.t, hi⟩ ⟨hlt.h0, hlt.h1, hlt.h2, hlt.h3, rfl⟩
      ⟨hots.h0, hots.h1, hots.h2, hots.h3, rfl⟩).any
  node := fun a h q hh hq ha => by
    refine (TI.thashH_node (a := setTreeIndex (setTreeHeight a h) q) (height := h) (index := q) g hH hs
      ⟨ha.h0, ha.h1, ha.h2, ha.h3, ha.h4⟩ rfl rfl ?_ rfl rfl).any
    refine ⟨hin.l, ?_, ?_, ?_⟩ <;> rw [g.hp_eq]
    · exact hin.t
    · exact hh
    · exact hq

variable {skSeed pubSeed : Bytes} {layer tree : Nat} {N : Nat → Nat → Bytes} {Q : Nat × Bytes → Prop}

/-- Bounds of a place, from the number of leaves below and before it. -/
theorem spot_bound {T j q : Nat} (h : 2 ^ (j + 1) * (q + 1) ≤ 2 ^ T) : j < T ∧ q < 2 ^ (T - 1 - j) := by
  have hh : j < T := by
    by_contra hc
    have h3 : 2 ^ T ≤ 2 ^ j := Nat.pow_le_pow_right (by omega) (by omega)
    have h4 : 2 ^ (j + 1) ≤ 2 ^ (j + 1) * (q + 1) := Nat.le_mul_of_pos_right _ (by omega)
    have h5 : 2 ^ (j + 1) = 2 * 2 ^ j := by rw [pow_succ]; ring
    have := Nat.two_pow_pos j
    omega
  refine ⟨hh, ?_⟩
  have h3 : 2 ^ T = 2 ^ (j + 1) * 2 ^ (T - 1 - j) := by rw [← pow_add]; congr 1; omega
  rw [h3] at h
  have := Nat.le_of_mul_le_mul_left h (Nat.two_pow_pos _)
  omega

theorem updateMerge_ht (ctx : TreeCtx H p skSeed pubSeed layer tree N) (cc : CallCtx H p skSeed pubSeed layer tree N Q)
    {S i nextIdx : Nat} (hS : 2 ^ i ∣ S) (hn : nextIdx < 2 ^ p.tree_height) (s : BdsState) (rest : List (Bytes × Nat)) :
    ∀ (seg : List (Bytes × Nat)) (j m : Nat) (a : Addr), IsStk (shiftN N S) j m seg →
      RepL s.stack ((seg ++ rest).map Prod.fst) → RepL s.stacklevels ((seg ++ rest).map Prod.snd) →
      nextIdx + 1 = S + 2 ^ j * (m + 1) → 2 ^ j * (m + 1) ≤ 2 ^ i → IsTree a layer tree →
      HT Q (updateMergeT H p pubSeed s nextIdx seg.length (seg ++ rest).length j (shiftN N S j m) a) fun _ => True := by
  intro seg
  induction seg with
  | nil => intro j m a _ _ _ _ _ _; exact HT.pureAny
  | cons x seg ih =>
    intro j m a hs hr1 hr2 hm hle ha
    have h1 : s.stack[(seg ++ rest).length]? = some x.1 := by
      have := RepL.top (l := s.stack) (x := x.1) (L := (seg ++ rest).map Prod.fst) hr1
      simpa using this
    have h2 : s.stacklevels[(seg ++ rest).length]? = some x.2 := by
      have := RepL.top (l := s.stacklevels) (x := x.2) (L := (seg ++ rest).map Prod.snd) hr2
      simpa using this
    rw [List.cons_append, List.length_cons, List.length_cons, updateMergeT, if_neg (by omega), Nat.add_sub_cancel]
    refine HT.optE h2 (HT.ite (fun hx => ?_) fun _ => HT.pureAny)
    rcases Nat.even_or_odd' m with ⟨q, rfl | rfl⟩
    · have hx' := hs.inv_even.heights x (by simp)
      omega
    · obtain ⟨s', h, hs'⟩ := hs.inv_odd
      simp only [List.cons.injEq] at h
      obtain ⟨rfl, rfl⟩ := h
      have hm' : nextIdx + 1 = S + 2 ^ (j + 1) * (q + 1) := by rw [hm, pow_succ]; ring
      have hle' : 2 ^ (j + 1) * (q + 1) ≤ 2 ^ i := by
        have : 2 ^ (j + 1) * (q + 1) = 2 ^ j * (2 * q + 1 + 1) := by ring
        omega
      have hji : j + 1 ≤ i := by
        have h3 : 2 ^ (j + 1) ≤ 2 ^ i := le_trans (Nat.le_mul_of_pos_right _ (by omega)) hle'
        exact (Nat.pow_le_pow_iff_right (by omega)).mp h3
      obtain ⟨S', hS'⟩ : 2 ^ (j + 1) ∣ S := (pow_dvd_pow 2 hji).trans hS
      have hsum : nextIdx + 1 = 2 ^ (j + 1) * (S' + q + 1) := by rw [hm', hS']; ring
      have hidx : nextIdx >>> (j + 1) = S' + q := by
        rw [Nat.shiftRight_eq_div_pow]
        exact div_of_succ_eq hsum
      have e1 : S / 2 ^ j = 2 * S' := by
        rw [hS', pow_succ, mul_assoc, Nat.mul_div_cancel_left _ (Nat.two_pow_pos j)]
      have e2 : S / 2 ^ (j + 1) = S' := by rw [hS', Nat.mul_div_cancel_left _ (Nat.two_pow_pos _)]
      have hval := ctx.node a j (S' + q) ha
      have hN1 : shiftN N S j (2 * q) = N j (2 * (S' + q)) := by
        unfold shiftN; rw [e1]; congr 1; ring
      have hN2 : shiftN N S j (2 * q + 1) = N j (2 * (S' + q) + 1) := by
        unfold shiftN; rw [e1]; congr 1; ring
      have hN3 : N (j + 1) (S' + q) = shiftN N S (j + 1) q := by unfold shiftN; rw [e2]
      have had := ctx.nodeAddr a j (S' + q) (N j (2 * (S' + q)) ++ N j (2 * (S' + q) + 1)) ha
      obtain ⟨b1, b2⟩ := spot_bound (T := p.tree_height) (j := j) (q := S' + q) (by omega)
      refine HT.optE h1 ?_
      rw [hidx, hN1, hN2]
      refine HT.bindE (cc.node a j (S' + q) b1 b2 ha) (by rw [Lens.thashHT, thashHT_eq]; rfl) ?_
      rw [hval, hN3]
      exact ih (j + 1) q _ hs' (RepL.pop hr1) (RepL.pop hr2) hm' hle' had

theorem treehashUpdate_ht {addr : Addr} (ctx : TreeCtx H p skSeed pubSeed layer tree N)
    (cc : CallCtx H p skSeed pubSeed layer tree N Q) (ha : IsSub addr layer tree) {base : List (Bytes × Nat)} {φ : Nat}
    {pr : Nat → Nat} {seg : Nat → List (Bytes × Nat)} {s : BdsState} (w : WorkInv p N base φ pr seg s) {c : Nat}
    (hp : Pick p.insts pr c) : HT Q (treehashUpdateT H p s c skSeed pubSeed addr) fun _ => True := by
  have hso := w.segOk
  have hM : p.insts ≤ p.tree_height := Nat.sub_le _ _
  obtain ⟨t, ht, iok⟩ := w.inst c hp.lt
  obtain ⟨q1, q2, q3, q4, q5, q6⟩ := iok.part hp.incomplete
  obtain ⟨T, hT⟩ : ∃ T, target φ c = T := ⟨_, rfl⟩
  rw [hT] at q3 q5 q6
  have hempty : ∀ i < c, seg i = [] := by
    intro i hi
    have hiM : i < p.insts := lt_trans hi hp.lt
    rcases hp.case with ⟨_, h, _⟩ | ⟨_, h⟩
    · exact (hso i hiM).1 (h i hi)
    · rcases h i hi with h1 | h1
      · exact (hso i hiM).1 h1
      · exact hso.nil_of_zero hiM h1.1
  obtain ⟨post, hpost⟩ : ∃ l, l = (List.range' (c + 1) (p.insts - c - 1)).flatMap seg := ⟨_, rfl⟩
  have hsplit : segs p.insts seg = seg c ++ post := by rw [hpost]; exact segs_split seg hp.lt hempty
  have hrep := w.stack
  rw [hsplit, List.append_assoc] at hrep
  have hleaf := (ctx.leaf (ltreeOf addr) (otsOf addr) t.nextIdx 0 0 ha.ltree ha.ots).1
  have hleaf' : N 0 t.nextIdx = shiftN N (T * 2 ^ c) 0 (pr c) := by
    unfold shiftN; rw [q3]; simp
  have hlt := hp.incomplete
  have hnext : t.nextIdx + 1 ≤ 2 ^ p.tree_height := by
    have h1 : (T + 1) * 2 ^ c ≤ 2 ^ (p.tree_height - c) * 2 ^ c := Nat.mul_le_mul_right _ q6
    rw [← pow_add, Nat.sub_add_cancel (by have := hp.lt; omega), Nat.add_mul, one_mul] at h1
    omega
  rw [treehashUpdateT]
  refine HT.optE ht (HT.bindE (cc.leaf _ _ _ 0 0 (by omega) ha.ltree ha.ots) (by rw [Lens.genLeafWotsT, genLeafWotsT_eq]; rfl) ?_)
  rw [hleaf, hleaf', q4, hrep.off]
  refine HT.bind (updateMerge_ht ctx cc (i := c) (S := T * 2 ^ c) (nextIdx := t.nextIdx) (Dvd.intro_left _ rfl) (by omega) s
    (post ++ base) (seg c) 0 (pr c) (nodeOf addr) q5 hrep.stack hrep.levels (by rw [q3, pow_zero, one_mul]; ring)
    (by rw [pow_zero, one_mul]; omega) ha.node) fun r _ => ?_
  exact HT.ite (fun _ => HT.pureAny) fun _ => HT.optBind fun _ _ => HT.optBind fun _ _ => HT.pureAny

theorem bdsUpdateLoop_ht {addr : Addr} (ctx : TreeCtx H p skSeed pubSeed layer tree N)
    (cc : CallCtx H p skSeed pubSeed layer tree N Q) (hth : p.tree_height < 31) (ha : IsSub addr layer tree)
    {base : List (Bytes × Nat)} {φ : Nat} :
    ∀ (k : Nat) {pr : Nat → Nat} {seg : Nat → List (Bytes × Nat)} {s : BdsState} (used : Nat), WorkInv p N base φ pr seg s →
    HT Q (bdsUpdateLoopT H p skSeed pubSeed addr k s used) fun _ => True := by
  intro k
  induction k with
  | zero => intro pr seg s used w; exact HT.pureAny
  | succ k ih =>
    intro pr seg s used w
    rw [bdsUpdateLoopT]
    rcases pickLevel_eq w with ⟨h1, h2⟩ | ⟨c, h1, h2⟩
    · refine HT.optE h1 ?_
      rw [if_pos rfl]
      exact HT.pureAny
    · obtain ⟨s1, seg1, e1, w1, sm1, l1⟩ := treehashUpdate_eq ctx hth ha w h2
      refine HT.optE h1 ?_
      have := h2.lt
      rw [if_neg (by omega)]
      exact HT.bindE (treehashUpdate_ht ctx cc ha w h2) (by rw [Lens.treehashUpdateT, treehashUpdateT_val]; exact e1) (ih (used + 1) w1)

theorem bdsTreehashUpdate_ht {addr : Addr} (ctx : TreeCtx H p skSeed pubSeed layer tree N)
    (cc : CallCtx H p skSeed pubSeed layer tree N Q) (hth : p.tree_height < 31) (ha : IsSub addr layer tree)
    {base : List (Bytes × Nat)} {φ : Nat} (updates : Nat) {pr : Nat → Nat} {seg : Nat → List (Bytes × Nat)} {s : BdsState}
    (w : WorkInv p N base φ pr seg s) : HT Q (bdsTreehashUpdateT H p s updates skSeed pubSeed addr) fun _ => True :=
  HT.bind (bdsUpdateLoop_ht ctx cc hth ha updates 0 w) fun _ _ => HT.pureAny

theorem bdsRound_ht {addr : Addr} (cc : CallCtx H p skSeed pubSeed layer tree N Q) (ha : IsSub addr layer tree)
    {base : List (Bytes × Nat)} {φ : Nat} {pr : Nat → Nat} {seg : Nat → List (Bytes × Nat)} {s : BdsState}
    (w : TreeInv p N base φ pr seg s) (hφ : φ + 1 < 2 ^ p.tree_height) :
    HT Q (bdsRoundT H p s φ skSeed pubSeed addr) fun _ => True := by
  obtain ⟨tau, m, ht1, ht2, ht3⟩ := tauLoop_eq (φ := φ) p.tree_height 0 (by simp) (by rw [Nat.zero_add]; exact hφ)
  rw [Nat.zero_add] at ht2
  rw [bdsRoundT]
  simp only [ht1]
  by_cases h0 : tau = 0
  · subst h0
    refine HT.optBind fun buf _ => HT.optBind fun s' _ => ?_
    rw [if_pos rfl]
    exact HT.bind (cc.leaf _ _ _ 0 0 (by omega) ha.ltree ha.ots) fun _ _ => HT.optBind fun _ _ => HT.pureAny
  · obtain ⟨q, c1, c2, c3, c4, c5⟩ := carry_low ht3 (i := tau - 1) (by omega)
    have ht : tau - 1 + 1 = tau := by omega
    rw [ht] at c1 c4 c5
    have hm := ht3
    -- which node is the left one
    have hbuf : (if 0 < tau then do
        let a ← s.auth[tau - 1]?
        let k ← s.keep[(tau - 1) >>> 1]?
        some (a ++ k)
      else some [] : Option Bytes) = some (N (tau - 1) (2 * q) ++ N (tau - 1) (2 * q + 1)) := by
      have k1 := w.auth (tau - 1) (by omega)
      rw [c2, sibling_odd] at k1
      have hq : q = 2 * m := by
        have := (carry_top ht3).1
        omega
      have k2 := w.keep (tau - 1) (by omega) (by rw [c2]; omega) (by rw [ht, c1]; omega)
      rw [c2] at k2
      rw [if_pos (by omega), Nat.shiftRight_one]
      simp only [k1, k2, Option.bind_eq_bind, Option.bind_some]
    refine HT.optE hbuf (HT.optBind fun s' _ => ?_)
    rw [if_neg h0]
    have hsh : φ >>> tau = q := by rw [Nat.shiftRight_eq_div_pow]; exact c1
    obtain ⟨b1, b2⟩ := spot_bound (T := p.tree_height) (j := tau - 1) (q := q) (by rw [ht]; omega)
    rw [hsh]
    exact HT.bind (cc.node _ _ _ b1 b2 ha.node) fun _ _ => HT.optBind fun _ _ => HT.optBind fun _ _ => HT.optAny

theorem storeNode_same {s s' : BdsState} {idx j : Nat} {x : Bytes} (h : storeNode p s idx j x = some s') : SameStack s s' := by
  rw [storeNode] at h
  split at h
  · obtain ⟨_, _, h⟩ := Option.bind_eq_some_iff.mp h
    cases h; exact ⟨rfl, rfl, rfl, rfl⟩
  · split at h
    · obtain ⟨_, _, h⟩ := Option.bind_eq_some_iff.mp h
      cases h; exact ⟨rfl, rfl, rfl, rfl⟩
    · split at h
      · obtain ⟨_, _, h⟩ := Option.bind_eq_some_iff.mp h
        cases h; exact ⟨rfl, rfl, rfl, rfl⟩
      · cases h; exact ⟨rfl, rfl, rfl, rfl⟩

theorem mergeLoop_ht (ctx : TreeCtx H p skSeed pubSeed layer tree N) (cc : CallCtx H p skSeed pubSeed layer tree N Q) {idx : Nat}
    (hidx : idx < 2 ^ p.tree_height) :
    ∀ (L : List (Bytes × Nat)) (j m fuel : Nat) (s : BdsState) (a : Addr), IsStk N j m L →
      Rep s ((N j m, j) :: L) → idx + 1 = 2 ^ j * (m + 1) → IsTree a layer tree →
      HT Q (mergeLoopT H p pubSeed idx fuel s a) fun _ => True := by
  intro L
  induction L with
  | nil =>
    intro j m fuel s a hs hr hm ha
    cases fuel with
    | zero => exact HT.pureAny
    | succ f =>
      rw [mergeLoopT, if_pos (by rw [hr.off]; simp)]
      exact HT.pureAny
  | cons x L ih =>
    intro j m fuel s a hs hr hm ha
    cases fuel with
    | zero => exact HT.pureAny
    | succ f =>
      have hoff : s.stackoffset = L.length + 2 := by rw [hr.off]; simp
      have hl1 : s.stacklevels[L.length + 1]? = some j := by
        have := RepL.top (l := s.stacklevels) (L := (x :: L).map Prod.snd) hr.levels
        simpa using this
      have hl2 : s.stacklevels[L.length]? = some x.2 := by
        have := RepL.top (l := s.stacklevels) (L := L.map Prod.snd) (x := x.2) (RepL.pop hr.levels)
        simpa using this
      have hv1 : s.stack[L.length + 1]? = some (N j m) := by
        have := RepL.top (l := s.stack) (L := (x :: L).map Prod.fst) hr.stack
        simpa using this
      have hv2 : s.stack[L.length]? = some x.1 := by
        have := RepL.top (l := s.stack) (L := L.map Prod.fst) (x := x.1) (RepL.pop hr.stack)
        simpa using this
      rw [mergeLoopT, if_neg (by omega), hoff]
      simp only [show L.length + 2 - 1 = L.length + 1 by omega, show L.length + 2 - 2 = L.length by omega]
      refine HT.optE hl1 (HT.optE hl2 (HT.ite (fun _ => HT.pureAny) fun hx => ?_))
      rcases Nat.even_or_odd' m with ⟨q, rfl | rfl⟩
      · have hx' := hs.inv_even.heights x (by simp)
        omega
      · obtain ⟨L0, h, hs'⟩ := hs.inv_odd
        simp only [List.cons.injEq] at h
        obtain ⟨rfl, rfl⟩ := h
        simp only at hv2
        have hm' : idx + 1 = 2 ^ (j + 1) * (q + 1) := by rw [hm, pow_succ]; ring
        have hsh' : idx >>> (j + 1) = q := by rw [Nat.shiftRight_eq_div_pow]; exact div_of_succ_eq hm'
        obtain ⟨b1, b2⟩ := spot_bound (T := p.tree_height) (j := j) (q := q) (by omega)
        refine HT.optE hv1 (HT.optBind fun s1 e1 => ?_)
        have ss1 := storeNode_same e1
        rw [ss1.off, hoff]
        simp only [show L.length + 2 - 1 = L.length + 1 by omega, show L.length + 2 - 2 = L.length by omega]
        rw [ss1.stack, ss1.levels, hsh']
        refine HT.optE hv2 (HT.bindE (cc.node a j q b1 b2 ha) (by rw [Lens.thashHT, thashHT_eq]; rfl) ?_)
        rw [ctx.node a j q ha]
        have had := ctx.nodeAddr a j q (N j (2 * q) ++ N j (2 * q + 1)) ha
        have hcap : L.length < s.stack.length := by
          have := hr.stack.length_le
          simp at this; omega
        have hcap' : L.length < s.stacklevels.length := by
          have := hr.levels.length_le
          simp at this; omega
        rw [setA_some hcap, setA_some hcap']
        refine HT.optE rfl (HT.optE rfl ?_)
        refine ih (j + 1) q f _ _ hs' ⟨by simp, ?_, ?_⟩ hm' had
        · have h4 := hr.stack.pop.pop.push (N (j + 1) q) (by rw [List.length_map]; exact hcap)
          rw [List.length_map] at h4
          exact h4
        · have h4 := hr.levels.pop.pop.push (j + 1) (by rw [List.length_map]; exact hcap')
          rw [List.length_map] at h4
          exact h4

theorem addLeaf_ht (ctx : TreeCtx H p skSeed pubSeed layer tree N) (cc : CallCtx H p skSeed pubSeed layer tree N Q) {c : Nat}
    (hc : c < 2 ^ p.tree_height) {s : BdsState} (b : BuildInv p N c s) {lt ots nd : Addr} {o1 o2 : Nat}
    (hlt : IsLtree lt layer tree o1) (hots : IsOts ots layer tree o2) (hnd : IsTree nd layer tree) :
    HT Q (addLeafT H p skSeed pubSeed c s lt ots nd) fun _ => True := by
  obtain ⟨L, hr, hs⟩ := b.stack
  have sh := b.shape
  obtain ⟨g1, g2, g3⟩ := ctx.leaf lt ots c o1 o2 hlt hots
  have hL : L.length ≤ p.tree_height := hs.length_le _ hc
  have hcap : s.stackoffset < s.stack.length := by rw [hr.off, sh.stack_len]; omega
  have hcap' : s.stackoffset < s.stacklevels.length := by rw [hr.off, sh.levels_len]; omega
  rw [addLeafT]
  refine HT.bindE (cc.leaf _ _ _ _ _ hc hlt hots) (by rw [Lens.genLeafWotsT, genLeafWotsT_eq]; rfl) ?_
  rw [setA_some hcap, setA_some hcap', g1]
  refine HT.optE rfl (HT.optE rfl (HT.optBind fun s2 e2 => ?_))
  obtain ⟨s1, hs1⟩ : ∃ s1 : BdsState, s1 = { s with
      stack := s.stack.set s.stackoffset (N 0 c), stackoffset := s.stackoffset + 1,
      stacklevels := s.stacklevels.set s.stackoffset 0, leaves := s.leaves + 1 } := ⟨_, rfl⟩
  have hr1 : Rep s1 ((N 0 c, 0) :: L) := by
    rw [hs1]
    refine ⟨by simp [hr.off], ?_, ?_⟩
    · have h4 := hr.stack.push (N 0 c) (by rw [List.length_map, ← hr.off]; exact hcap)
      rw [List.length_map, ← hr.off] at h4
      exact h4
    · have h4 := hr.levels.push 0 (by rw [List.length_map, ← hr.off]; exact hcap')
      rw [List.length_map, ← hr.off] at h4
      exact h4
  have hr2 : Rep s2 ((N 0 c, 0) :: L) := by
    rw [← hs1] at e2
    split at e2
    · obtain ⟨_, _, e2⟩ := Option.bind_eq_some_iff.mp e2
      obtain ⟨_, _, e2⟩ := Option.bind_eq_some_iff.mp e2
      cases e2
      exact ⟨hr1.off, hr1.stack, hr1.levels⟩
    · cases e2; exact hr1
  exact HT.bind (mergeLoop_ht ctx cc hc L 0 c _ s2 nd hs hr2 (by simp) hnd) fun _ _ => HT.pureAny

theorem addLeaves_ht (ctx : TreeCtx H p skSeed pubSeed layer tree N) (cc : CallCtx H p skSeed pubSeed layer tree N Q)
    (hth : p.tree_height < 31) (h3 : 3 ≤ p.tree_height) (hK : p.bds_k ≤ p.tree_height) :
    ∀ (k c : Nat) (s : BdsState) (lt ots nd : Addr) (o1 o2 : Nat), c + k ≤ 2 ^ p.tree_height → BuildInv p N c s →
      IsLtree lt layer tree o1 → IsOts ots layer tree o2 → IsTree nd layer tree →
      HT Q (addLeavesT H p skSeed pubSeed k c s lt ots nd) fun _ => True := by
  intro k
  induction k with
  | zero => intro c s lt ots nd o1 o2 _ b _ _ _; exact HT.pureAny
  | succ k ih =>
    intro c s lt ots nd o1 o2 hk b hlt hots hnd
    obtain ⟨s1, lt', ots', nd', e1, b1, a1, a2, a3, sm1, l1, fr1⟩ := addLeaf_eq ctx hth h3 hK (by omega) b hlt hots hnd
    rw [addLeavesT]
    exact HT.bindE (addLeaf_ht ctx cc (by omega) b hlt hots hnd) (by rw [Lens.addLeafT, addLeafT_val]; exact e1)
      (ih (c + 1) s1 lt' ots' nd' c c (by omega) b1 a1 a2 a3)

theorem bdsStateUpdate_ht {addr : Addr} (ctx : TreeCtx H p skSeed pubSeed layer tree N)
    (cc : CallCtx H p skSeed pubSeed layer tree N Q) (ha : IsSub addr layer tree) {s : BdsState}
    (b : BuildInv p N s.nextLeaf s) (hle : s.nextLeaf ≤ 2 ^ p.tree_height) :
    HT Q (bdsStateUpdateT H p s skSeed pubSeed addr) fun _ => True := by
  rw [bdsStateUpdateT, Nat.one_shiftLeft]
  refine HT.ite (fun _ => HT.pureAny) fun hc => ?_
  exact HT.bind (addLeaf_ht ctx cc (by omega) b ha.ltree ha.ots ha.node) fun _ _ => HT.pureAny

/-- `treehash_init`, from any state. -/
theorem treehashInit_ht {addr : Addr} (ctx : TreeCtx H p skSeed pubSeed layer tree N)
    (cc : CallCtx H p skSeed pubSeed layer tree N Q) (hth : p.tree_height < 31) (h3 : 3 ≤ p.tree_height)
    (hK : p.bds_k ≤ p.tree_height) (ha : IsSub addr layer tree) {s : BdsState} (sh : Shape p s) :
    HT Q (treehashInitT H p s skSeed pubSeed addr) fun _ => True := by
  obtain ⟨w, hw⟩ : ∃ w : BdsState, w = { s with
    treehash := resetInsts 0 s.treehash
    stack := List.replicate (p.tree_height + 1) (List.replicate p.n 0)
    stacklevels := List.replicate (p.tree_height + 1) 0
    stackoffset := 0 } := ⟨_, rfl⟩
  have hM : p.insts ≤ p.tree_height := Nat.sub_le _ _
  have hget : ∀ (i : Nat) (t : TreehashInst), w.treehash[i]? = some t → t.completed = 1 ∧ t.h < 256 ∧ t.nextIdx < 2 ^ 32 ∧ t.stackusage < 256 ∧ t.node.length = p.n := by
    intro i t ht
    rw [hw] at ht
    simp only at ht
    rw [resetInsts_get, Option.map_eq_some_iff] at ht
    obtain ⟨t0, e1, rfl⟩ := ht
    have hm := sh.insts_mem t0 (List.mem_of_getElem? e1)
    have hi : i < s.treehash.length := (List.getElem?_eq_some_iff.mp e1).1
    rw [sh.insts_len] at hi
    exact ⟨rfl, by simp only; omega, hm.2.1, by simp, hm.2.2.2.2⟩
  have shw : Shape p w := by
    have hmem : ∀ t ∈ w.treehash, t.h < 256 ∧ t.nextIdx < 2 ^ 32 ∧ t.stackusage < 256 ∧ t.completed < 256 ∧ t.node.length = p.n := by
      intro t ht
      obtain ⟨i, hi⟩ := List.mem_iff_getElem?.mp ht
      obtain ⟨e1, e2, e3, e4, e5⟩ := hget i t hi
      exact ⟨e2, e3, e4, by omega, e5⟩
    rw [hw] at hmem ⊢
    exact { sh with
      stack_len := by simp
      stack_mem := by intro x hx; simp at hx; rw [hx]; simp
      levels_len := by simp
      levels_mem := by intro x hx; simp at hx; omega
      insts_len := by simp only; rw [resetInsts_length]; exact sh.insts_len
      insts_mem := hmem
      off_lt := by simp }
  have b0 : BuildInv p N 0 w := by
    refine ⟨shw, ⟨[], ⟨by rw [hw]; rfl, RepL.nil _, RepL.nil _⟩, IsStk.nil 0⟩, ?_⟩
    intro i r _ hle
    have : 0 < (2 * r + 2) * 2 ^ i := by positivity
    omega
  rw [treehashInitT, Nat.one_shiftLeft, ← hw]
  exact HT.bind (addLeaves_ht ctx cc hth h3 hK (2 ^ p.tree_height) 0 w (ltreeOf addr) (otsOf addr) (nodeOf addr) 0 0
    (by omega) b0 ha.ltree ha.ots ha.node) fun _ _ => HT.optBind fun _ _ => HT.pureAny

/-- `bds_round` and the updates after it. -/
theorem Ready.step_ht {addr : Addr} (ctx : TreeCtx H p skSeed pubSeed layer tree N)
    (cc : CallCtx H p skSeed pubSeed layer tree N Q) (hth : p.tree_height < 31) (ha : IsSub addr layer tree)
    {base : List (Bytes × Nat)} {φ : Nat} {s : BdsState} (r : Ready p N base φ s) (hφ : φ + 1 < 2 ^ p.tree_height) (u : Nat) :
    HT Q (do
      let s ← bdsRoundT H p s φ skSeed pubSeed addr
      let r ← bdsTreehashUpdateT H p s u skSeed pubSeed addr
      Pure.pure r.1) fun _ => True := by
  obtain ⟨pr, seg, ti, hin, hac⟩ := r
  have hn := ti.work.nested
  have hdone : ∀ i < p.insts, 2 ^ (i + 1) ∣ φ + 1 → pr i = 2 ^ i := fun i hi hd => done_at_deadline hn hin hi hd
  obtain ⟨s1, e1, t1, n1, l1⟩ := bdsRound_eq ctx hth ha ti hφ hdone
  exact HT.bindE (bdsRound_ht cc ha ti hφ) (by rw [Lens.bdsRoundT, bdsRoundT_val]; exact e1)
    (HT.bind (bdsTreehashUpdate_ht ctx cc hth ha u t1.work) fun _ _ => HT.pureAny)

end Xmss
