import Verif.Proof.TraceSign
import Verif.Proof.MtLast
/-
Two runs of the fast sign functions side by side.
-/
namespace Xmss
open Tr

variable {H H' : Bytes → Bytes} {p : Params} {b b' c : Prop} {s s' : BdsState}

theorem CtlP.imp (h : CtlP b s s') (hb : b' → b) : CtlP b' s s' := { h with insts := fun x => h.insts (hb x) }

/-! ### Storing and reading back -/

/-- An instance as it comes back from the secret key. -/
def TreehashInst.norm (t : TreehashInst) : TreehashInst :=
  { t with h := t.h % 256, nextIdx := t.nextIdx % 2 ^ 32, stackusage := t.stackusage % 256, completed := t.completed % 256 }

/-- A state as it comes back from the secret key. -/
def BdsState.norm (s : BdsState) : BdsState :=
  { s with stackoffset := s.stackoffset % 2 ^ 32, stacklevels := s.stacklevels.map (· % 256), nextLeaf := s.nextLeaf % 2 ^ 32
           treehash := s.treehash.map TreehashInst.norm }

theorem ullToBytes_mod (k v : Nat) : ullToBytes k (v % 256 ^ k) = ullToBytes k v := by
  rw [ullToBytes_eq, ullToBytes_eq]
  have h := toByte_toNat (Rfc.toByte v k)
  rw [toNat_toByte, toByte_length] at h
  exact h

theorem norm_instBytes (t : TreehashInst) : instBytes t.norm = instBytes t := by
  have h1 := fun v => ullToBytes_mod 1 v
  have h4 := fun v => ullToBytes_mod 4 v
  have e : (256 : Nat) ^ 4 = 2 ^ 32 := by norm_num
  rw [e] at h4
  rw [pow_one] at h1
  simp only [instBytes, TreehashInst.norm, h1, h4]

theorem norm_bytes (s : BdsState) : stateBytes s.norm = stateBytes s := by
  have h4 := fun v => ullToBytes_mod 4 v
  have e : (256 : Nat) ^ 4 = 2 ^ 32 := by norm_num
  rw [e] at h4
  have hi : s.norm.treehash.map instBytes = s.treehash.map instBytes := by
    simp only [BdsState.norm, List.map_map]
    exact List.map_congr_left fun t _ => norm_instBytes t
  have hl : s.norm.stacklevels.map UInt8.ofNat = s.stacklevels.map UInt8.ofNat := by
    simp only [BdsState.norm, List.map_map]
    refine List.map_congr_left fun x _ => ?_
    apply UInt8.toNat.inj
    simp
  unfold stateBytes
  rw [hi, hl]
  simp only [BdsState.norm, h4]

theorem LenShape.norm (h : LenShape p s) : Shape p s.norm where
  stack_len := h.stack_len
  stack_mem := h.stack_mem
  levels_len := by simp [BdsState.norm, h.levels_len]
  levels_mem := by
    intro x hx
    obtain ⟨y, _, rfl⟩ := List.mem_map.mp hx
    exact Nat.mod_lt _ (by norm_num)
  auth_len := h.auth_len
  auth_mem := h.auth_mem
  keep_len := h.keep_len
  keep_mem := h.keep_mem
  insts_len := by simp [BdsState.norm, h.insts_len]
  insts_mem := by
    intro t ht
    obtain ⟨u, hu, rfl⟩ := List.mem_map.mp ht
    exact ⟨Nat.mod_lt _ (by norm_num), Nat.mod_lt _ (by norm_num), Nat.mod_lt _ (by norm_num), Nat.mod_lt _ (by norm_num), h.insts_mem u hu⟩
  retain_len := h.retain_len
  retain_mem := h.retain_mem
  off_lt := Nat.mod_lt _ (by norm_num)
  next_lt := Nat.mod_lt _ (by norm_num)

theorem InstRel.norm {t t' : TreehashInst} (h : InstRel t t') : InstRel t.norm t'.norm := by
  obtain ⟨h1, h2, h3, h4⟩ := h
  have e : t.norm.completed = t.completed := Nat.mod_eq_of_lt h3
  have e' : t'.norm.completed = t'.completed := Nat.mod_eq_of_lt h4
  refine ⟨by rw [e, e']; exact h1, fun h0 => ?_, by rw [e]; exact h3, by rw [e']; exact h4⟩
  obtain ⟨a, b, d⟩ := h2 (by rw [e] at h0; exact h0)
  simp only [TreehashInst.norm, a, b, d, and_self]

theorem CtlP.norm (h : CtlP b s s') : CtlP b s.norm s'.norm where
  so := by simp only [BdsState.norm, h.so]
  lv := by
    intro i hi
    have : i < s.stackoffset := lt_of_lt_of_le hi (Nat.mod_le _ _)
    simp only [BdsState.norm, List.getElem?_map, h.lv i this]
  stack_len := h.stack_len
  levels_len := by simp [BdsState.norm, h.levels_len]
  auth_len := h.auth_len
  keep_len := h.keep_len
  insts_len := by simp [BdsState.norm, h.insts_len]
  retain_len := h.retain_len
  next := by simp only [BdsState.norm, h.next]
  insts := by
    intro hb i t t' ht ht'
    simp only [BdsState.norm, List.getElem?_map, Option.map_eq_some_iff] at ht ht'
    obtain ⟨u, hu, rfl⟩ := ht
    obtain ⟨u', hu', rfl⟩ := ht'
    exact (h.insts hb i u u' hu hu').norm

theorem CtlP.leaves (h : CtlP b s s') (n n' : Nat) : CtlP b { s with leaves := n } { s' with leaves := n' } := { h with }

/-! ### Several states -/

/-- Equally many states, with the same control fields. -/
def StatesRel (p : Params) (st st' : List BdsState) : Prop :=
  st.length = st'.length ∧ ∀ (i : Nat) (s s' : BdsState), st[i]? = some s → st'[i]? = some s' → CtlP (i < p.d) s s'

variable {st st' : List BdsState}

theorem StatesRel.get (h : StatesRel p st st') (i : Nat) : OptR (CtlP (i < p.d)) st[i]? st'[i]? :=
  (optR_get h.1 i).mono fun s s' hs hs' _ => h.2 i s s' hs hs'

theorem StatesRel.set (h : StatesRel p st st') {i : Nat} {x y : BdsState} (hx : CtlP (i < p.d) x y) :
    StatesRel p (st.set i x) (st'.set i y) := by
  refine ⟨by simpa using h.1, fun j s s' hs hs' => ?_⟩
  simp only [List.getElem?_set] at hs hs'
  by_cases e : i = j
  · rw [if_pos e] at hs hs'
    split at hs <;> simp only [reduceCtorEq, Option.some.injEq] at hs
    split at hs' <;> simp only [reduceCtorEq, Option.some.injEq] at hs'
    subst hs hs' e
    exact hx
  · rw [if_neg e] at hs hs'
    exact h.2 j s s' hs hs'

theorem StatesRel.map (h : StatesRel p st st') (f g : BdsState → BdsState)
    (hf : ∀ (i : Nat) (s s' : BdsState), st[i]? = some s → st'[i]? = some s' → CtlP (i < p.d) s s' → CtlP (i < p.d) (f s) (g s')) :
    StatesRel p (st.map f) (st'.map g) := by
  refine ⟨by simpa using h.1, fun j s s' hs hs' => ?_⟩
  simp only [List.getElem?_map, Option.map_eq_some_iff] at hs hs'
  obtain ⟨u, hu, rfl⟩ := hs
  obtain ⟨u', hu', rfl⟩ := hs'
  exact hf j u u' hu hu' (h.2 j u u' hu hu')

/-! ### The loop over the layers -/

/-- Sum of the digits of a WOTS message. -/
def digitSum (p : Params) (H : Bytes → Bytes) (M : Bytes) : Nat := ((suiteOf p H).wotsDigits M).sum

theorem wotsSign_rel (g : p.Good) {M M' : Bytes} (h : M.length = p.n) (h' : M'.length = p.n) (hc : c → digitSum p H M = digitSum p H' M')
    (sk ps sk' ps' : Bytes) (a a' : Addr) : RelR c (fun _ _ => True) (wotsSignT H p M sk ps a) (wotsSignT H' p M' sk' ps' a') := by
  rw [wotsSignT_eq g h, wotsSignT_eq g h']
  exact RelR.mk trivial fun x => by
    have := hc x
    unfold digitSum at this
    rw [this]

/-- The locals of the loop, alike. -/
structure VRel (p : Params) (v v' : MtLocals) : Prop where
  states : StatesRel p v.states v'.states
  sigs : v.sigs.length = v'.sigs.length
  updates : v.updates = v'.updates
  swap : v.swap = v'.swap

variable {v v' : MtLocals}

theorem mtStepInner_rel (h : VRel p v v') {i : Nat} (hi : i < p.d) (idx : Nat) (sk ps sk' ps' : Bytes) :
    RelR c (VRel p) (mtStepInnerT H p sk ps idx i v) (mtStepInnerT H' p sk' ps' idx i v') := by
  rw [mtStepInnerT, mtStepInnerT]
  refine RelR.bindO (h.states.get i) fun s s' _ _ hs => ?_
  have hs := hs.imp (b' := True) fun _ => hi
  refine RelR.bind (R := CtlP True) (RelR.ite (by rw [h.swap]) (fun _ => bdsRound_rel hs _ _ _ _ _ _ _) fun _ => RelR.pure hs)
    fun s1 s1' h1 => ?_
  rw [← h.updates]
  refine RelR.bind (bdsTreehashUpdate_rel h1 _ _ _ _ _ _ _) fun r r' hr => ?_
  have h2 := h.states.set (i := i) (hr.1.imp fun _ => trivial)
  refine RelR.ite (by rw [hr.2]) (fun _ => ?_) fun _ => RelR.pure ⟨h2, h.sigs, hr.2, h.swap⟩
  refine RelR.bindO (h2.get (p.d + i)) fun n n' _ _ hn => ?_
  refine RelR.ite (by rw [hn.next]) (fun _ => ?_) fun _ => RelR.pure ⟨h2, h.sigs, hr.2, h.swap⟩
  refine RelR.bind (bdsStateUpdate_rel hn _ _ _ _ _ _) fun m m' hm => RelR.pure ⟨h2.set hm, h.sigs, by simp only [hr.2], h.swap⟩

theorem swapStates_rel (h : StatesRel p st st') (i j : Nat) : OptR (fun a a' => ∃ x y x' y', st[i]? = some x ∧ st[j]? = some y ∧
      st'[i]? = some x' ∧ st'[j]? = some y' ∧ a = (st.set i y).set j x ∧ a' = (st'.set i y').set j x')
      (swapStates st i j) (swapStates st' i j) := by
  unfold swapStates
  refine (optR_get h.1 i).bind fun x x' hx hx' _ => (optR_get h.1 j).bind fun y y' hy hy' _ => OptR.some ?_
  exact ⟨x, y, x', y', hx, hy, hx', hy', rfl, rfl⟩

theorem mtStepSwap_rel (g : p.Good) (h : VRel p v v') {i : Nat} (hi : i < p.d) (idx : Nat) (sk ps sk' ps' : Bytes)
    (sh : LenExt p v.states v.sigs) (sh' : LenExt p v'.states v'.sigs)
    (hc : c → ∀ s s' x x', v.states[p.d + i]? = some s → v'.states[p.d + i]? = some s' → s.stack[0]? = some x → s'.stack[0]? = some x' →
      digitSum p H x = digitSum p H' x') :
    RelR c (VRel p) (mtStepSwapT H p sk ps idx i v) (mtStepSwapT H' p sk' ps' idx i v') := by
  rw [mtStepSwapT, mtStepSwapT]
  refine RelR.bindO (swapStates_rel h.states i (p.d + i)) fun a a' _ _ ⟨x, y, x', y', hx, hy, hx', hy', ea, ea'⟩ => ?_
  have hl := h.states.1
  have hxr := h.states.2 _ _ _ hx hx'
  have hyr := h.states.2 _ _ _ hy hy'
  have hil : i < v.states.length := (List.getElem?_eq_some_iff.mp hx).1
  have hjl : p.d + i < v.states.length := (List.getElem?_eq_some_iff.mp hy).1
  have e1 : a[i]? = some y := by rw [ea, List.getElem?_set_ne (by omega), List.getElem?_set_self hil]
  have e1' : a'[i]? = some y' := by rw [ea', List.getElem?_set_ne (by omega), List.getElem?_set_self (by omega)]
  have e2 : a[p.d + i]? = some x := by rw [ea, List.getElem?_set_self (by rw [List.length_set]; omega)]
  have e2' : a'[p.d + i]? = some x' := by rw [ea', List.getElem?_set_self (by rw [List.length_set]; omega)]
  rw [e1, e1', e2, e2']
  trsimp
  refine RelR.bindO (optR_get hyr.stack_len 0) fun r r' hr hr' _ => ?_
  have l1 := (sh.states_mem _ (List.mem_of_getElem? hy)).stack_mem _ (List.mem_of_getElem? hr)
  have l2 := (sh'.states_mem _ (List.mem_of_getElem? hy')).stack_mem _ (List.mem_of_getElem? hr')
  refine RelR.bind (wotsSign_rel g l1 l2 (fun x0 => hc x0 y y' r r' hy hy' hr hr') _ _ _ _ _ _) fun w w' _ => ?_
  refine RelR.bindO (optR_setA h.sigs i _ _) fun sg sg' _ _ hsg => RelR.pure ⟨?_, ?_, ?_, rfl⟩
  · refine ⟨by simp only [List.length_set, ea, ea', hl], fun j t t' ht ht' => ?_⟩
    simp only [ea, ea', List.getElem?_set, List.length_set] at ht ht'
    by_cases ej : i = j
    · rw [if_pos ej, if_pos (by omega), Option.some.injEq] at ht ht'
      subst ht ht'
      exact { hyr with
        insts_len := by simp [hyr.insts_len]
        insts := by
          intro _ k u u' hu hu'
          simp only [List.getElem?_map, Option.map_eq_some_iff] at hu hu'
          obtain ⟨w1, _, rfl⟩ := hu
          obtain ⟨w2, _, rfl⟩ := hu'
          exact InstRel.of_completed rfl rfl }
    · rw [if_neg ej] at ht ht'
      by_cases ek : p.d + i = j
      · rw [if_pos ek, if_pos (by omega), Option.some.injEq] at ht ht'
        subst ht ht'
        exact { hxr with
          so := rfl
          lv := fun k hk => absurd hk (by simp)
          next := rfl
          insts := fun hj => absurd hj (by omega) }
      · rw [if_neg ek, if_neg ek, if_neg ej] at ht ht'
        exact h.states.2 j t t' ht ht'
  · simp [hsg.1, hsg.2.1, h.sigs]
  · simp only [h.updates]

theorem mtStep_frame {sk ps : Bytes} {idx i : Nat} (hi : i < p.d) {w : MtLocals} (h : mtStep H p sk ps idx i v = some w) {j : Nat} (hj : i < j) :
    w.states[p.d + j]? = v.states[p.d + j]? := by
  unfold mtStep at h
  split at h
  · rw [mtStepInner] at h
    simp only at h
    obtain ⟨s, hs, h⟩ := Option.bind_eq_some_iff.mp h
    obtain ⟨s1, hs1, h⟩ := Option.bind_eq_some_iff.mp h
    obtain ⟨r, hr, h⟩ := Option.bind_eq_some_iff.mp h
    have e : (v.states.set i r.1)[p.d + j]? = v.states[p.d + j]? := List.getElem?_set_ne (by omega)
    split at h
    · obtain ⟨n, hn, h⟩ := Option.bind_eq_some_iff.mp h
      split at h
      · obtain ⟨n', hn', h⟩ := Option.bind_eq_some_iff.mp h
        cases h
        simp only
        rw [List.getElem?_set_ne (by omega), e]
      · cases h; exact e
    · cases h; exact e
  · split at h
    · rw [mtStepSwap] at h
      simp only at h
      obtain ⟨sts, hsts, h⟩ := Option.bind_eq_some_iff.mp h
      obtain ⟨cur, hcur, h⟩ := Option.bind_eq_some_iff.mp h
      obtain ⟨root, hroot, h⟩ := Option.bind_eq_some_iff.mp h
      obtain ⟨sg, hsg, h⟩ := Option.bind_eq_some_iff.mp h
      obtain ⟨nx, hnx, h⟩ := Option.bind_eq_some_iff.mp h
      cases h
      simp only
      rw [List.getElem?_set_ne (by omega), List.getElem?_set_ne (by omega)]
      rw [swapStates] at hsts
      obtain ⟨x, hx, hsts⟩ := Option.bind_eq_some_iff.mp hsts
      obtain ⟨y, hy, hsts⟩ := Option.bind_eq_some_iff.mp hsts
      cases hsts
      rw [List.getElem?_set_ne (by omega), List.getElem?_set_ne (by omega)]
    · cases h; rfl

theorem mtStep_len (g : p.Good) (hH : ∀ x, (H x).length = p.n) {sk ps : Bytes} {idx i : Nat} {w : MtLocals}
    (sh : LenExt p v.states v.sigs) (ho : v.otsAddr.a3 = UInt32.ofNat 0) (h : mtStep H p sk ps idx i v = some w) :
    LenExt p w.states w.sigs ∧ w.otsAddr.a3 = UInt32.ofNat 0 := by
  unfold mtStep at h
  split at h
  · obtain ⟨a, b⟩ := mtStepInner_len g hH sh h
    exact ⟨a, by rw [b]; exact ho⟩
  · split at h
    · exact mtStepSwap_len g hH sh ho h
    · cases h; exact ⟨sh, ho⟩

/-- The roots that the loop signs when trees change have the same digit sums in both runs. -/
def RootsAgree (p : Params) (H H' : Bytes → Bytes) (idx i e : Nat) (st st' : List BdsState) : Prop :=
  ∀ j, i ≤ j → j < e → (idx + 1) &&& ((1 <<< ((j + 1) * p.tree_height)) - 1) = 0 → idx < 2 ^ p.full_height - 1 →
    ∀ s s' x x', st[p.d + j]? = some s → st'[p.d + j]? = some s' → s.stack[0]? = some x → s'.stack[0]? = some x' →
      digitSum p H x = digitSum p H' x'

theorem mtLoop_rel (g : p.Good) (hH : ∀ x, (H x).length = p.n) (hH' : ∀ x, (H' x).length = p.n) (idx : Nat) (sk ps sk' ps' : Bytes) :
    ∀ (k i : Nat) (v v' : MtLocals), i + k ≤ p.d → VRel p v v' → LenExt p v.states v.sigs → LenExt p v'.states v'.sigs →
      v.otsAddr.a3 = UInt32.ofNat 0 → v'.otsAddr.a3 = UInt32.ofNat 0 → (c → RootsAgree p H H' idx i (i + k) v.states v'.states) →
      RelR c (VRel p) (mtLoopT H p sk ps idx k i v) (mtLoopT H' p sk' ps' idx k i v')
  | 0, _, _, _, _, h, _, _, _, _, _ => RelR.pure h
  | k + 1, i, v, v', hi, h, sh, sh', ho, ho', hc => by
    rw [mtLoopT, mtLoopT]
    refine RelR.bindV (R := VRel p) ?_ fun w w' hw hw' hv => ?_
    · rw [mtStepT, mtStepT]
      refine RelR.ite Iff.rfl (fun _ => mtStepInner_rel h (by omega) _ _ _ _ _) fun h1 =>
        RelR.ite Iff.rfl (fun h2 => mtStepSwap_rel g h (by omega) _ _ _ _ _ sh sh' ?_) fun _ => RelR.pure h
      intro x
      exact hc x i le_rfl (by omega) (Classical.not_not.mp h1) h2
    · rw [mtStepT_val] at hw hw'
      obtain ⟨a1, a2⟩ := mtStep_len g hH sh ho hw
      obtain ⟨a1', a2'⟩ := mtStep_len g hH' sh' ho' hw'
      refine mtLoop_rel g hH hH' idx sk ps sk' ps' k (i + 1) w w' (by omega) hv a1 a1' a2 a2' ?_
      intro x j hj1 hj2 hm hl s s' y y' hs hs'
      rw [mtStep_frame (by omega) hw (by omega)] at hs
      rw [mtStep_frame (by omega) hw' (by omega)] at hs'
      exact hc x j (by omega) (by omega) hm hl s s' y y' hs hs'

/-- The states in front of the loop: one leaf has been added to the next tree of the bottom layer. -/
def nextZero (H : Bytes → Bytes) (p : Params) (skSeed pubSeed : Bytes) (idx : Nat) (states : List BdsState) : Option (List BdsState) :=
  if (1 + idx >>> p.tree_height) * (1 <<< p.tree_height) + (idx &&& ((1 <<< p.tree_height) - 1)) < 2 ^ p.full_height then do
    let next ← states[p.d]?
    let next ← bdsStateUpdate H p next skSeed pubSeed (setTreeAddr Addr.zero ((idx >>> p.tree_height) + 1))
    some (states.set p.d next)
  else some states

theorem mtTraverse_rel (g : p.Good) (hH : ∀ x, (H x).length = p.n) (hH' : ∀ x, (H' x).length = p.n) (idx : Nat) (sk ps sk' ps' : Bytes)
    {sg sg' : List Bytes} (h : StatesRel p st st') (sh : LenExt p st sg) (sh' : LenExt p st' sg') {oa oa' : Addr}
    (ho : oa.a3 = UInt32.ofNat 0) (ho' : oa'.a3 = UInt32.ofNat 0)
    (hc : c → ∀ s1 s1', nextZero H p sk ps idx st = some s1 → nextZero H' p sk' ps' idx st' = some s1' →
      RootsAgree p H H' idx 0 p.d s1 s1') :
    RelR c (fun v v' => StatesRel p v.states v'.states ∧ LenExt p v.states v.sigs ∧ LenExt p v'.states v'.sigs)
      (mtTraverseT H p sk ps idx st sg oa) (mtTraverseT H' p sk' ps' idx st' sg' oa') := by
  have key : RelR c (VRel p) (mtTraverseT H p sk ps idx st sg oa) (mtTraverseT H' p sk' ps' idx st' sg' oa') := by
    rw [mtTraverseT, mtTraverseT]
    refine RelR.bindV (R := StatesRel p) ?_ fun s1 s1' h1 h1' hs => ?_
    · refine RelR.ite Iff.rfl (fun _ => ?_) fun _ => RelR.pure h
      refine RelR.bindO (h.get p.d) fun n n' _ _ hn => ?_
      exact (bdsStateUpdate_rel hn _ _ _ _ _ _).bind fun m m' hm => RelR.pure (h.set hm)
    · have e1 : nextZero H p sk ps idx st = some s1 := by
        rw [← h1]; vsimp [nextZero, bdsStateUpdateT_val]
      have e1' : nextZero H' p sk' ps' idx st' = some s1' := by
        rw [← h1']; vsimp [nextZero, bdsStateUpdateT_val]
      have l1 : ∀ {H : Bytes → Bytes} {sk ps : Bytes} {st s1 : List BdsState} {sg : List Bytes}, (∀ x, (H x).length = p.n) →
          LenExt p st sg → nextZero H p sk ps idx st = some s1 → LenExt p s1 sg := by
        intro H sk ps st s1 sg hH sh e
        unfold nextZero at e
        split at e
        · obtain ⟨nx, hnx, e⟩ := Option.bind_eq_some_iff.mp e
          obtain ⟨n2, hn2, e⟩ := Option.bind_eq_some_iff.mp e
          cases e
          exact sh.set (bdsStateUpdate_len g hH (sh.states_mem _ (List.mem_of_getElem? hnx)) hn2)
        · cases e; exact sh
      refine mtLoop_rel g hH hH' idx sk ps sk' ps' p.d 0 _ _ (by omega) ⟨hs, by rw [sh.sigs_len, sh'.sigs_len], rfl, rfl⟩
        (l1 hH sh e1) (l1 hH' sh' e1') ho ho' ?_
      intro x
      rw [Nat.zero_add]
      exact hc x s1 s1' e1 e1'
  refine key.mono fun v v' hv hv' h2 => ?_
  rw [mtTraverseT_val] at hv hv'
  exact ⟨h2.states, mtTraverse_len g hH sh ho hv, mtTraverse_len g hH' sh' ho' hv'⟩

theorem xmssTraverse_rel (g : p.Good) (hH : ∀ x, (H x).length = p.n) (hH' : ∀ x, (H' x).length = p.n) (idx : Nat) (sk ps sk' ps' : Bytes)
    (h : CtlP True s s') (sh : LenShape p s) (sh' : LenShape p s') (a a' : Addr) :
    RelR c (fun s s' => CtlP True s s' ∧ LenShape p s ∧ LenShape p s') (xmssTraverseT H p sk ps idx s a) (xmssTraverseT H' p sk' ps' idx s' a') := by
  have key : RelR c (CtlP True) (xmssTraverseT H p sk ps idx s a) (xmssTraverseT H' p sk' ps' idx s' a') := by
    rw [xmssTraverseT, xmssTraverseT]
    refine RelR.ite Iff.rfl (fun _ => ?_) fun _ => RelR.pure h
    refine (bdsRound_rel h _ _ _ _ _ _ _).bind fun t t' ht => (bdsTreehashUpdate_rel ht _ _ _ _ _ _ _).bind fun r r' hr => RelR.pure hr.1
  refine key.mono fun v v' hv hv' h2 => ?_
  rw [xmssTraverseT_val] at hv hv'
  exact ⟨h2, xmssTraverse_len g hH sh hv, xmssTraverse_len g hH' sh' hv'⟩

end Xmss
