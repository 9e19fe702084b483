import Verif.Proof.LowFastSwap
/-
The pointer-level model of the fast implementation: `deep_state_swap` exchanges two states.
-/
namespace Xmss.Low

set_option linter.unusedSimpArgs false

variable {P : Prims} {H : Bytes → Bytes} {p : Params}

/-- Contents of the arrays of a state. -/
theorem Sim.arrays {b : Ptr} {m : Mem} {lv : Levels} {w : BdsState} (S : Sim p (.upd b) false m lv w) :
    load m (b + offF p (.stack 0)) ((p.tree_height + 1) * p.n) = some w.stack.flatten ∧
    load m (b + offF p (.lev 0)) (p.tree_height + 1) = some (w.stacklevels.map UInt8.ofNat) ∧
    load m (b + offF p (.auth 0)) (p.tree_height * p.n) = some w.auth.flatten ∧
    load m (b + offF p (.keep 0)) (p.tree_height / 2 * p.n) = some w.keep.flatten := by
  have ft := S.fit
  have hv : Valid m b (stSize p) := S.room (b, stSize p) (by simp [Mode.ranges])
  refine ⟨?_, ?_, S.auth_load, ?_⟩
  · have hl : w.stack.flatten.length = (p.tree_height + 1) * p.n := by rw [flatten_length_of ft.stack_mem, ft.stack_len]
    refine Holds.load ?_ hl
    rw [holds_flatten _ _ ft.stack_mem (by rw [ft.stack_len]; exact hv.sub _ _ (by simp only [offF, stSize]; omega))]
    intro j x hj
    have := S.get (f := .stack j) ⟨by simp, trivial⟩ hj
    rw [add_add, show offF p (.stack 0) + j * p.n = offF p (.stack j) by simp only [offF]; omega]
    exact this
  · refine Holds.load ?_ (by rw [List.length_map, ft.levels_len])
    rw [levels_holds (by rw [ft.levels_len]; exact hv.sub _ _ (by simp only [offF, stSize]; omega))]
    intro j x hj
    have := S.get (f := .lev j) ⟨by simp, trivial⟩ hj
    rw [add_add, show offF p (.lev 0) + j = offF p (.lev j) by simp only [offF]]
    exact this
  · have hl : w.keep.flatten.length = p.tree_height / 2 * p.n := by rw [flatten_length_of ft.keep_mem, ft.keep_len]
    refine Holds.load ?_ hl
    rw [holds_flatten _ _ ft.keep_mem (by rw [ft.keep_len]; exact hv.sub _ _ (by simp only [offF, stSize]; omega))]
    intro j x hj
    have := S.get (f := .keep j) ⟨by simp, trivial⟩ hj
    rw [add_add, show offF p (.keep 0) + j * p.n = offF p (.keep j) by simp only [offF]; omega]
    exact this

/-- One of two exchanged states. -/
theorem sim_swapped {m m' : Mem} {b1 b2 : Ptr} {N : Nat} {R : List (Nat × Nat)} {lv : Levels} {w : BdsState} (h : Swp m m' b1 b2 N R)
    (hv : Valid m b1 (stSize p)) (S : Sim p (.upd b2) false m lv w)
    (hR : ∀ f, okF p f → ∃ r ∈ R, r.1 ≤ offF p f ∧ offF p f + lenF p f ≤ r.1 + r.2) :
    Sim p (.upd b1) false m' (.mem (b1 + offF p (.lev 0))) w := by
  refine ⟨S.fit, ?_, ?_, trivial, rfl⟩
  · intro f x _ hg
    have hok := S.fit.ok hg
    obtain ⟨r, hr, h1, h2⟩ := hR f hok
    exact h.new1 hv hr h1 h2 (by have := offF_le hok; omega) (S.rel f x ⟨by simp, trivial⟩ hg)
  · intro r hr
    simp only [Mode.ranges, List.mem_singleton] at hr
    subst hr
    exact room_of_map h.len hv

theorem Swp.onlyIn {m0 L m' : Mem} {b1 b2 : Ptr} {S : Nat} {R : List (Nat × Nat)} (h : Swp (m0 ++ L) m' b1 b2 m0.length R)
    (hR : ∀ r ∈ R, r.1 + r.2 ≤ S) : OnlyIn m0 (release m0 m') [(b1, S), (b2, S)] := by
  refine ⟨?_, ?_⟩
  · show (m'.take m0.length).map List.length = _
    rw [List.map_take, h.len, List.map_append, List.take_left' (by simp)]
  · intro b i hw
    by_cases hb : b < m0.length
    · rw [show Low.release m0 m' = m'.take m0.length from rfl, cell_take hb, h.out b i hb, cell_append_left hb]
      intro r hr
      have := hR r hr
      refine ⟨?_, ?_⟩
      · rintro ⟨h1, h2, h3⟩
        exact hw ⟨(b1, S), by simp, h1, by simp only; omega, by simp only; omega⟩
      · rintro ⟨h1, h2, h3⟩
        exact hw ⟨(b2, S), by simp, h1, by simp only; omega, by simp only; omega⟩
    · unfold cell
      rw [List.getElem?_eq_none (by rw [show Low.release m0 m' = m'.take m0.length from rfl, List.length_take]; omega),
        List.getElem?_eq_none (by omega)]

set_option maxHeartbeats 1000000 in
theorem deepStateSwap_sim (F0 : Fast0 P H p) (h8 : 8 ≤ p.n) {m : Mem} {b1 b2 : Ptr} {lv1 lv2 : Levels} {w1 w2 : BdsState}
    (S1 : Sim p (.upd b1) false m lv1 w1) (S2 : Sim p (.upd b2) false m lv2 w2) (hd : Disj b1 (stSize p) b2 (stSize p)) :
    ∃ m', deepStateSwap p m (lst p b1 w1) (lst p b2 w2) = some (lst p b1 w2, lst p b2 w1, m') ∧
      OnlyIn m m' [(b1, stSize p), (b2, stSize p)] ∧ Sim p (.upd b1) false m' (.mem (b1 + offF p (.lev 0))) w2 ∧
      Sim p (.upd b2) false m' (.mem (b2 + offF p (.lev 0))) w1 := by
  have hth := F0.good.th_lt
  have hb1 := S1.blk
  have hb2 := S2.blk
  have hv1 : Valid m b1 (stSize p) := S1.room (b1, stSize p) (by simp [Mode.ranges])
  have hv2 : Valid m b2 (stSize p) := S2.room (b2, stSize p) (by simp [Mode.ranges])
  set T := (p.tree_height + 1) * p.n with hT
  have hTn : p.n ≤ T := Nat.le_mul_of_pos_left _ (by omega)
  have hTa : p.tree_height * p.n ≤ T := Nat.mul_le_mul_right _ (by omega)
  have hTk : p.tree_height / 2 * p.n ≤ T := Nat.mul_le_mul_right _ (by omega)
  have hTl : p.tree_height + 1 ≤ T := Nat.le_mul_of_pos_right _ (by omega)
  have e1 : w32 (p.tree_height + 1) = p.tree_height + 1 := w32_lt (by omega)
  have e2 : w32 T = T := F0.mul_lt (Nat.le_refl _)
  have e3 : w32 (p.tree_height * p.n) = p.tree_height * p.n := F0.mul_lt (by omega)
  have e4 : w32 (p.tree_height / 2 * p.n) = p.tree_height / 2 * p.n := F0.mul_lt (by omega)
  set mA : Mem := m ++ [List.replicate T none] with hmA
  set t : Ptr := ⟨m.length, 0⟩ with ht
  have hvt : Valid mA t T := valid_right (by simp)
  have tb : t.blk = m.length := rfl
  have SA1 : Sim p (.upd b1) false mA lv1 w1 := S1.append
  have SA2 : Sim p (.upd b2) false mA lv2 w2 := S2.append
  obtain ⟨x1, x2, x3, x4⟩ := SA1.arrays
  obtain ⟨y1, y2, y3, y4⟩ := SA2.arrays
  have o1 : offF p (.stack 0) = 0 := by simp only [offF]; omega
  have o2 : offF p (.lev 0) = T + 4 := by simp only [offF, hT]
  have o3 : offF p (.auth 0) = T + 4 + (p.tree_height + 1) := by simp only [offF]; omega
  have o4 : offF p (.keep 0) = T + 4 + (p.tree_height + 1) + p.tree_height * p.n := by simp only [offF]; omega
  have o5 : offF p (.node 0) = T + 4 + (p.tree_height + 1) + p.tree_height * p.n + p.tree_height / 2 * p.n + 7 := by simp only [offF]; omega
  have o6 : offF p (.node p.tree_height) + 4 = stSize p + 7 := by simp only [offF, stSize]
  have o7 : offF p (.node 0) ≤ offF p (.node p.tree_height) := by simp only [offF]; omega
  have tsub : ∀ {l}, l ≤ T → Valid mA t l := fun {l} h => by have := hvt.sub 0 l (by omega); exact this
  obtain ⟨m1, g1, s1⟩ := (Swp.refl mA b1 b2 t.blk).step (t := t) (S := stSize p) hb1 hb2 hd (tsub (Nat.le_refl _)) (by simp) (by omega) x1 y1
  obtain ⟨m2, g2, s2⟩ := s1.step (t := t) (S := stSize p) hb1 hb2 hd (tsub hTl) (by
    simp only [List.mem_cons, List.not_mem_nil, or_false, forall_eq]; omega) (by omega) x2 y2
  obtain ⟨m3, g3, s3⟩ := s2.step (t := t) (S := stSize p) hb1 hb2 hd (tsub hTa) (by
    simp only [List.mem_cons, List.not_mem_nil, or_false, forall_eq_or_imp, forall_eq]; omega) (by omega) x3 y3
  obtain ⟨m4, g4, s4⟩ := s3.step (t := t) (S := stSize p) hb1 hb2 hd (tsub hTk) (by
    simp only [List.mem_cons, List.not_mem_nil, or_false, forall_eq_or_imp, forall_eq]; omega) (by omega) x4 y4
  have nd : ∀ {b : Ptr} {lv : Levels} {w : BdsState}, Sim p (.upd b) false mA lv w → ∀ j s, w.treehash[j]? = some s →
      load mA (b + offF p (.node (0 + j))) p.n = some s.node := by
    intro b lv w S j s hj
    rw [Nat.zero_add]
    exact S.get (f := .node j) ⟨by simp, trivial⟩ (by rw [getF, hj]; rfl)
  obtain ⟨m5, R5, g5, s5, i5, n5, u5⟩ := swapNodes_of (p := p) (t := t) (S := stSize p) (m := mA) hb1 hb2 hd (tsub hTn) (by omega) w1.treehash w2.treehash 0 m4 _
    (by rw [S1.fit.insts_len, S2.fit.insts_len]) (by rw [S1.fit.insts_len]; omega) s4 (by
      simp only [List.mem_cons, List.not_mem_nil, or_false, forall_eq_or_imp, forall_eq]; omega) (nd SA1) (nd SA2)
  have z1 : load mA (b1 + (offF p (.node p.tree_height) - 7)) 0 = some [] :=
    (holds_nil (SA1.room (b1, stSize p) (by simp [Mode.ranges]) |>.sub (offF p (.node p.tree_height) - 7) 0 (by simp only; omega))).load rfl
  have z2 : load mA (b2 + (offF p (.node p.tree_height) - 7)) 0 = some [] :=
    (holds_nil (SA2.room (b2, stSize p) (by simp [Mode.ranges]) |>.sub (offF p (.node p.tree_height) - 7) 0 (by simp only; omega))).load rfl
  have hRb : ∀ r ∈ R5, r.1 + r.2 ≤ offF p (.node p.tree_height) - 7 := by
    intro r hr
    rcases u5 r hr with h | h
    · omega
    · simp only [List.mem_cons, List.not_mem_nil, or_false] at h
      rcases h with rfl | rfl | rfl | rfl <;> simp only <;> omega
  obtain ⟨m6, g6, s6⟩ := s5.step (t := t) (S := stSize p) hb1 hb2 hd (tsub (Nat.zero_le _)) hRb (by omega) z1 z2
  have cover : ∀ f, okF p f → ∃ r ∈ ((offF p (.node p.tree_height) - 7, 0) :: R5), r.1 ≤ offF p f ∧ offF p f + lenF p f ≤ r.1 + r.2 := by
    intro f hok
    cases f with
    | stack j =>
      refine ⟨_, List.mem_cons_of_mem _ (i5 (offF p (.stack 0), T) (by simp)), ?_, ?_⟩
      · simp only [offF]; omega
      · have := mul_end (n := p.n) hok
        simp only [offF, lenF]; omega
    | lev j =>
      refine ⟨_, List.mem_cons_of_mem _ (i5 (offF p (.lev 0), p.tree_height + 1) (by simp)), ?_, ?_⟩
      · simp only [offF]; omega
      · simp only [okF] at hok; simp only [offF, lenF]; omega
    | auth j =>
      refine ⟨_, List.mem_cons_of_mem _ (i5 (offF p (.auth 0), p.tree_height * p.n) (by simp)), ?_, ?_⟩
      · simp only [offF]; omega
      · have := mul_end (n := p.n) hok
        simp only [offF, lenF]; omega
    | keep j =>
      refine ⟨_, List.mem_cons_of_mem _ (i5 (offF p (.keep 0), p.tree_height / 2 * p.n) (by simp)), ?_, ?_⟩
      · simp only [offF]; omega
      · have := mul_end (n := p.n) hok
        simp only [offF, lenF]; omega
    | node j =>
      refine ⟨_, List.mem_cons_of_mem _ (n5 j (by rw [S1.fit.insts_len]; exact hok)), ?_, ?_⟩
      · rw [Nat.zero_add]
      · rw [Nat.zero_add]; exact Nat.le_refl _
  refine ⟨release m m6, ?_, ?_, ?_, ?_⟩
  · unfold deepStateSwap
    simp only [Option.bind_eq_bind]
    rw [F0.retainL, Option.bind_some, e1, if_pos (by omega), ← hT, e2, alloc_pos (by omega), Option.bind_some]
    dsimp only
    rw [if_neg (by omega), Nat.shiftRight_one, e3, e4, Nat.zero_mul, show w32 0 = 0 from rfl]
    rw [show (lst p b1 w1).stack = b1 + offF p (.stack 0) from rfl, show (lst p b2 w2).stack = b2 + offF p (.stack 0) from rfl, g1, Option.bind_some,
      show (lst p b1 w1).stacklevels = b1 + offF p (.lev 0) from rfl, show (lst p b2 w2).stacklevels = b2 + offF p (.lev 0) from rfl, g2, Option.bind_some,
      show (lst p b1 w1).auth = b1 + offF p (.auth 0) from rfl, show (lst p b2 w2).auth = b2 + offF p (.auth 0) from rfl, g3, Option.bind_some,
      show (lst p b1 w1).keep = b1 + offF p (.keep 0) from rfl, show (lst p b2 w2).keep = b2 + offF p (.keep 0) from rfl, g4, Option.bind_some]
    simp only [Nat.zero_add] at g5
    rw [show (lst p b1 w1).treehash = w1.treehash.mapIdx (fun i => linst p b1 i) from rfl, show (lst p b2 w2).treehash = w2.treehash.mapIdx (fun i => linst p b2 i) from rfl,
      g5, Option.bind_some]
    dsimp only
    rw [show (lst p b1 w1).retain = b1 + (offF p (.node p.tree_height) - 7) from rfl, show (lst p b2 w2).retain = b2 + (offF p (.node p.tree_height) - 7) from rfl,
      g6, Option.bind_some]
    rfl
  · refine Swp.onlyIn s6 ?_
    intro r hr
    simp only [List.mem_cons] at hr
    rcases hr with rfl | hr
    · simp only; omega
    · have := hRb r hr; omega
  · refine (sim_swapped s6 (SA1.room (b1, stSize p) (by simp [Mode.ranges])) SA2 cover).release hb1
  · refine (sim_swapped s6.symm (SA2.room (b2, stSize p) (by simp [Mode.ranges])) SA1 cover).release hb2

end Xmss.Low
