import Verif.Proof.TraceFastSign
/-
Two signers of the fast implementation side by side: the calls with the same index go the same way.
-/
namespace Xmss
open Tr Sched

variable {H H' : Bytes → Bytes} {p : Params} {c : Prop}

theorem RelR.tell {α β : Type} {R : α → β → Prop} {t : Tr α} {u : Tr β} {l l' : List Nat} (hl : c → l = l') (h : RelR c R t u) :
    RelR c R (Tr.tell l t) (Tr.tell l' u) := by
  rcases h with ⟨rfl, rfl⟩ | ⟨a, k, b, k', rfl, rfl, h, hk⟩
  · exact Or.inl ⟨rfl, rfl⟩
  · rw [Tr.tell_mk, Tr.tell_mk]
    exact RelR.mk h fun x => by rw [hl x, hk x]

/-- Two secret keys after the same number of signatures, alike in everything that decides what happens. -/
def Twin (p : Params) (k k' : Key) (n : Nat) (sk sk' : Bytes) : Prop :=
  ∃ st st' sg sg', sk = k.fast p n st sg ∧ sk' = k'.fast p n st' sg' ∧ ExtShape p st sg ∧ ExtShape p st' sg' ∧ StatesRel p st st'

theorem headCalls_eq {k k' : Key} {idx : Nat} {m m' : Bytes} (hm : m.length = m'.length)
    (hd : digitSum p H ((suiteOf p H).digest ((suiteOf p H).PRF k.skPrf (Rfc.toByte idx 32)) k.root idx m) =
      digitSum p H' ((suiteOf p H').digest ((suiteOf p H').PRF k'.skPrf (Rfc.toByte idx 32)) k'.root idx m')) :
    headCalls p H k idx m = headCalls p H' k' idx m' := by
  unfold headCalls wotsCalls
  unfold digitSum at hd
  rw [hm, hd]

theorem norm_ext (st : List BdsState) (sg : List Bytes) : extBytes (st.map BdsState.norm) sg = extBytes st sg := by
  unfold extBytes
  rw [List.map_map]
  congr 2
  exact List.map_congr_left fun s _ => norm_bytes s

theorem LenExt.norm {st : List BdsState} {sg : List Bytes} (h : LenExt p st sg) : ExtShape p (st.map BdsState.norm) sg where
  states_len := by simpa using h.states_len
  states_mem := by
    intro s hs
    obtain ⟨t, ht, rfl⟩ := List.mem_map.mp hs
    exact (h.states_mem t ht).norm
  sigs_len := h.sigs_len
  sigs_mem := h.sigs_mem

theorem Twin.of_len {k k' : Key} {n : Nat} {st st' : List BdsState} {sg sg' : List Bytes} (h : LenExt p st sg) (h' : LenExt p st' sg')
    (hr : StatesRel p st st') : Twin p k k' n (k.fast p n st sg) (k'.fast p n st' sg') :=
  ⟨_, _, sg, sg', by rw [Key.fast, Key.fast, norm_ext], by rw [Key.fast, Key.fast, norm_ext], h.norm, h'.norm,
    hr.map _ _ fun _ _ _ _ _ x => x.norm⟩

theorem ExtShape.one (hd : p.d = 1) {st : List BdsState} {sg : List Bytes} (h : ExtShape p st sg) : ∃ s, st = [s] ∧ sg = [] ∧ Shape p s := by
  have h1 := h.states_len
  have h2 := h.sigs_len
  rw [hd] at h1 h2
  match st, h1 with
  | [s], _ => exact ⟨s, rfl, List.length_eq_zero_iff.mp h2, h.states_mem s (by simp)⟩

theorem fastXmssSignT_twin (f : Fast1 p) (hH : ∀ x, (H x).length = p.n) (hH' : ∀ x, (H' x).length = p.n) {k k' : Key} (hk : k.Valid p)
    (hk' : k'.Valid p) {n : Nat} (hn : n < 2 ^ p.full_height - 1) {sk sk' : Bytes} (t : Twin p k k' n sk sk') (sm sm' : Bytes) (l0 l0' : Nat)
    (m m' : Bytes) (hsm : p.sig_bytes + m.length ≤ sm.length) (hsm' : p.sig_bytes + m'.length ≤ sm'.length)
    (hc : c → headCalls p H k n m = headCalls p H' k' n m') :
    RelR c (fun o o' => Twin p k k' (n + 1) o.sk o'.sk) (fastXmssSignT H p sk sm l0 m) (fastXmssSignT H' p sk' sm' l0' m') := by
  obtain ⟨st, st', sg, sg', rfl, rfl, sh, sh', hr⟩ := t
  have g := f.good
  obtain ⟨s, rfl, rfl, shs⟩ := sh.one f.d
  obtain ⟨s', rfl, rfl, shs'⟩ := sh'.one f.d
  have hr0 : CtlP True s s' := (hr.2 0 s s' rfl rfl).imp fun _ => by rw [f.d]; exact Nat.one_pos
  obtain ⟨a, F, e, hF⟩ := fastXmssSignT_lt f hH hk hn shs sm l0 m hsm
  obtain ⟨a', F', e', hF'⟩ := fastXmssSignT_lt f hH' hk' hn shs' sm' l0' m' hsm'
  rw [e, e']
  refine RelR.tell hc (RelR.bind (xmssTraverse_rel g hH hH' n k.skSeed k.pubSeed k'.skSeed k'.pubSeed (hr0.leaves 0 0) (shs.with_leaves 0).len
    (shs'.with_leaves 0).len a a') fun s1 s1' h1 => RelR.pure ?_)
  rw [(hF s1).1, (hF' s1').1]
  have hx : ∀ {s : BdsState}, LenShape p s → LenExt p [s] [] := fun h =>
    ⟨by rw [f.d]; rfl, fun t ht => by rw [List.mem_singleton.mp ht]; exact h, by rw [f.d]; rfl, fun _ h => absurd h (by simp)⟩
  refine Twin.of_len (hx h1.2.1) (hx h1.2.2) ⟨rfl, fun i u u' hu hu' => ?_⟩
  cases i with
  | zero =>
    simp only [List.getElem?_cons_zero, Option.some.injEq] at hu hu'
    subst hu hu'
    exact h1.1.imp fun _ => trivial
  | succ i => simp at hu

theorem fastXmssmtSignT_twin (f : FastMt p) (hH : ∀ x, (H x).length = p.n) (hH' : ∀ x, (H' x).length = p.n) {k k' : Key} (hk : k.Valid p)
    (hk' : k'.Valid p) {n : Nat} (hn : n < 2 ^ p.full_height - 1) {sk sk' : Bytes} (t : Twin p k k' n sk sk') (sm sm' : Bytes) (l0 l0' : Nat)
    (m m' : Bytes) (hsm : p.sig_bytes + m.length ≤ sm.length) (hsm' : p.sig_bytes + m'.length ≤ sm'.length)
    (hc : c → headCalls p H k n m = headCalls p H' k' n m')
    (hroots : c → ∀ st st' sg sg' s1 s1', sk = k.fast p n st sg → sk' = k'.fast p n st' sg' → ExtShape p st sg → ExtShape p st' sg' →
      nextZero H p k.skSeed k.pubSeed n (st.map fun s => { s with leaves := 0 }) = some s1 →
      nextZero H' p k'.skSeed k'.pubSeed n (st'.map fun s => { s with leaves := 0 }) = some s1' → RootsAgree p H H' n 0 p.d s1 s1') :
    RelR c (fun o o' => Twin p k k' (n + 1) o.sk o'.sk) (fastXmssmtSignT H p sk sm l0 m) (fastXmssmtSignT H' p sk' sm' l0' m') := by
  obtain ⟨st, st', sg, sg', rfl, rfl, sh, sh', hr⟩ := t
  have g := f.good
  obtain ⟨a, F, ha, e, hF⟩ := fastXmssmtSignT_lt f hH hk hn sh sm l0 m hsm
  obtain ⟨a', F', ha', e', hF'⟩ := fastXmssmtSignT_lt f hH' hk' hn sh' sm' l0' m' hsm'
  rw [e, e']
  refine RelR.tell hc (RelR.bind (mtTraverse_rel g hH hH' n k.skSeed k.pubSeed k'.skSeed k'.pubSeed
    (hr.map _ _ fun _ _ _ _ _ x => x.leaves 0 0) sh.leaves0.len sh'.leaves0.len ha ha'
    fun x s1 s1' h1 h1' => hroots x st st' sg sg' s1 s1' rfl rfl sh sh' h1 h1') fun v v' h1 => RelR.pure ?_)
  rw [(hF v).1, (hF' v').1]
  exact Twin.of_len h1.2.1 h1.2.2 h1.1

/-- Inside the trees no root is signed. -/
theorem rootsAgree_inner {n : Nat} (hn : ¬ 2 ^ p.tree_height ∣ n + 1) (s1 s1' : List BdsState) : RootsAgree p H H' n 0 p.d s1 s1' := by
  intro j _ _ hm
  rw [mask_dvd] at hm
  exact absurd ((by rw [← B_one]; exact B_dvd (by omega) : 2 ^ p.tree_height ∣ B p.tree_height (j + 1)).trans hm) hn

/-- The roots that are signed when trees change are those of RFC 8391. -/
theorem root_signed (f : FastMt p) (hH : ∀ x, (H x).length = p.n) {k : Key} {n : Nat} (hn : n + 1 < 2 ^ p.full_height)
    (hlim : n + 1 < B p.tree_height (p.tree_height / 2 + 2)) {st s1 : List BdsState} {sg : List Bytes}
    (mi : MtInv H p k.skSeed k.pubSeed (fun _ => none) n st sg) (h1 : nextZero H p k.skSeed k.pubSeed n st = some s1) {j : Nat}
    (hj : j < p.d) (hd : B p.tree_height (j + 1) ∣ n + 1) {s : BdsState} {x : Bytes} (hs : s1[p.d + j]? = some s) (hx : s.stack[0]? = some x) :
    x = (suiteOf p H).treeRoot k.skSeed k.pubSeed j ((n + 1) / B p.tree_height (j + 1)) := by
  have g := f.good
  obtain ⟨A, cc, m⟩ := mi
  obtain ⟨s2, c2, e, _, hin, hl, _⟩ := nextZero_eq f hH rfl m
  have e' : nextZero H p k.skSeed k.pubSeed n st = some s2 := e
  rw [h1, Option.some.injEq] at e'
  subst e'
  have hju : j ≤ p.insts / 2 := by
    rw [f.insts]
    by_contra hc
    have h2 := (B_dvd (h := p.tree_height) (show p.tree_height / 2 + 2 ≤ j + 1 by omega)).trans hd
    have := Nat.le_of_dvd (by omega) h2
    omega
  have hready := m.plan.ready hin hj (by rw [B, g.height]; exact hn) hju hd
  obtain ⟨cur, _, _, hnext⟩ := hl j hj
  have hj1 : j + 1 < p.d := by
    by_contra hc
    have h2 : B p.tree_height p.d ∣ n + 1 := (B_dvd (by omega)).trans hd
    have := Nat.le_of_dvd (by omega) h2
    rw [B, g.height] at this
    omega
  obtain ⟨nx, hnx, _, _, bi, _⟩ := hnext hj1
  rw [hs, Option.some.injEq] at hnx
  subst hnx
  rw [hready] at bi
  obtain ⟨hroot, _⟩ := bi.takeOver g.th_lt
  rw [hx, Option.some.injEq] at hroot
  rw [hroot, Rfc.Suite.treeRoot, g.hp_eq, Nat.succ_div_of_dvd hd]

end Xmss
