import Verif.Proof.LowFastMtLoop
/-
The pointer-level model of the fast implementation: the upper layers of a signature of `xmssmt_core_sign`.
-/
namespace Xmss.Low

set_option linter.unusedSimpArgs false

variable {P : Prims} {H : Bytes → Bytes} {p : Params}

theorem sigs_mul_lt (g : p.Good) {i : Nat} (h : i ≤ p.d) : i * p.wots_sig_bytes < 2 ^ 64 := by
  have h1 := g.sig_lt
  have h2 := g.sig_eq
  have h3 : i * p.wots_sig_bytes ≤ p.d * p.wots_sig_bytes := Nat.mul_le_mul_right _ h
  have h4 : (2 : Nat) ^ 32 < 2 ^ 64 := by norm_num
  omega

set_option maxHeartbeats 1000000 in
theorem mtCopyLoop_of (F0 : Fast0 P H p) {B : Ptr} {states : List BdsState} {sigs : List Bytes} {K c : Nat}
    (hc : c = p.wots_sig_bytes + p.tree_height * p.n) (hsl : states.length = 2 * p.d - 1) :
    ∀ (k i : Nat) (m : Mem) (q : Ptr) (l : Nat), 1 ≤ i → i + k ≤ p.d → Valid m q (k * c) → Sims p B m states K → SigsAt p (sigB p B) m sigs →
    Disj B (extSize p) q (k * c) →
    ∃ m', mtCopyLoopL p (lstates p B states) (sigB p B) k i m q l = some (m', q + k * c, l + k * c) ∧ OnlyIn m m' [(q, k * c)] ∧
      Holds m' q (storedLayers states sigs k i) := by
  have g := F0.good
  have hth := g.th_lt
  intro k
  induction k with
  | zero =>
    intro i m q l h1 h2 hv S G hd
    refine ⟨m, ?_, onlyIn_refl _ _, holds_nil hv⟩
    rw [Nat.zero_mul]; rfl
  | succ k ih =>
    intro i m q l h1 h2 hv S G hd
    have hmul : (k + 1) * c = c + k * c := by ring
    rw [hmul] at hv hd
    have hi : i < states.length := by omega
    have hgl : i - 1 < sigs.length := by rw [G.len]; omega
    have e1 : states[i]? = some states[i] := List.getElem?_eq_getElem hi
    have e2 : sigs[i - 1]? = some sigs[i - 1] := List.getElem?_eq_getElem hgl
    set w := states[i] with hw
    set x := sigs[i - 1] with hx
    have hxl : x.length = p.wots_sig_bytes := G.mem x (List.mem_of_getElem? e2)
    have hse := mul_end (n := p.wots_sig_bytes) (j := i - 1) (N := p.d - 1) (by omega)
    have hBi := stB_in (p := p) (B := B) (i := i) (n := 2 * p.d - 1) (by omega)
    have hel := extSize.eq_1 p
    have dSig : Disj (sigB p B + (i - 1) * p.wots_sig_bytes) p.wots_sig_bytes q (c + k * c) := by
      rcases hd with h | h
      · exact Or.inl h
      · right; simp only [add_off]; omega
    have dSt : Disj (stB p B i) (stSize p) q (c + k * c) := by
      rcases hd with h | h
      · exact Or.inl h
      · right; omega
    have dB : Disj B (extSize p) q (c + k * c) := hd
    clear hd
    -- the stored signature
    obtain ⟨m1, s1, o1, H1⟩ := stF (m := m) (q := q) (x := x) (len := p.wots_sig_bytes) (hv.sub 0 _ (by omega)) hxl
    have f1 : memcpy m q (sigB p B + w64 ((i - 1) * p.wots_sig_bytes)) p.wots_sig_bytes = some m1 := by
      rw [w64_lt (sigs_mul_lt g (by omega)), memcpy_of (G.get e2) (Or.inr (by dj dSig))]; exact s1
    have v1 := keepValid o1 hv
    have oe1 : OnlyIn m m1 [(q, c + k * c)] := o1.into1 q _ (List.mem_singleton.mpr rfl) rfl (Nat.le_refl _) (by omega)
    -- the authentication path
    have Sw := (S.sim i w e1).keep o1 (by dj dSt)
    have hal : w.auth.flatten.length = p.tree_height * p.n := by rw [flatten_length_of Sw.fit.auth_mem, Sw.fit.auth_len]
    obtain ⟨m2, s2, o2, H2⟩ := stF (m := m1) (q := q + p.wots_sig_bytes) (x := w.auth.flatten) (len := p.tree_height * p.n)
      (v1.sub _ _ (by omega)) hal
    have f2 : memcpy m1 (q + p.wots_sig_bytes) (lst p (stB p B i) w).auth (w32 (p.tree_height * p.n)) = some m2 := by
      rw [F0.mul_lt (by omega), show (lst p (stB p B i) w).auth = stB p B i + offF p (.auth 0) from rfl, memcpy_of Sw.auth_load (Or.inr ?_)]
      · exact s2
      · have : offF p (.auth 0) + p.tree_height * p.n ≤ stSize p := by simp only [offF, stSize]; omega
        (dj dSt)
    have oe2 : OnlyIn m1 m2 [(q, c + k * c)] := o2.into1 q _ (List.mem_singleton.mpr rfl) rfl (by simp only [add_off]; omega) (by simp only [add_off]; omega)
    have o12 := oe1.tr oe2
    have v2 := keepValid o2 v1
    have hdd : ∀ {a : Ptr} {n : Nat}, Disj a n q (c + k * c) → ∀ r ∈ [(q, c + k * c)], Disj a n r.1 r.2 := by
      intro a n h r hr
      simp only [List.mem_singleton] at hr
      subst hr; exact h
    have S2 : Sims p B m2 states K := S.keep o12 (hdd (by
      rw [hsl]
      rcases dB with h | h
      · exact Or.inl h
      · right; omega))
    have G2 : SigsAt p (sigB p B) m2 sigs := G.keep o12 (hdd (by
      rcases dB with h | h
      · exact Or.inl h
      · right; simp only [add_off]; omega))
    obtain ⟨m3, f3, o3, H3⟩ := ih (i + 1) m2 (q + c) (l + c) (by omega) (by omega) (v2.sub _ _ (by omega)) S2 G2 (by
      rcases dB with h | h
      · exact Or.inl h
      · right; simp only [add_off]; omega)
    refine ⟨m3, ?_, ?_, ?_⟩
    · rw [mtCopyLoopL]
      simp only [Option.bind_eq_bind]
      rw [f1, Option.bind_some, lstates_get, e1, Option.map_some, Option.bind_some, f2, Option.bind_some, F0.mul_lt (by omega), add_add, ← hc,
        show l + p.wots_sig_bytes + p.tree_height * p.n = l + c by omega, f3, add_add, hmul, Nat.add_assoc]
    · rw [hmul]
      exact o12.tr (o3.into1 q _ (List.mem_singleton.mpr rfl) rfl (by simp only [add_off]; omega) (by simp only [add_off]; omega))
    · rw [storedLayers, List.getD_eq_getElem?_getD, List.getD_eq_getElem?_getD, e1, e2, Option.getD_some, Option.getD_some]
      rw [holds_append, holds_append, List.length_append, hxl, hal, ← hc]
      refine ⟨⟨(H1.keep o2 ?_).keep o3 ?_, H2.keep o3 ?_⟩, H3⟩
      · rw [hxl]; dj
      · rw [hxl]; dj
      · rw [hal]; dj

end Xmss.Low
