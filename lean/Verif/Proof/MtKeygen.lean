import Verif.Proof.MtSign
/-
Multi-tree fast implementation: key generation.
-/
namespace Xmss
open Sched

variable {H : Bytes → Bytes} {p : Params}

/-- State of the key generation before layer `i`: `st0` and `sg0` are the states and signatures at the beginning. -/
structure GenInv (H : Bytes → Bytes) (p : Params) (skSeed pubSeed : Bytes) (st0 : List BdsState) (sg0 : List Bytes) (i : Nat)
    (states : List BdsState) (sigs : List Bytes) (addr : Addr) : Prop where
  states_len : states.length = st0.length
  sigs_len : sigs.length = sg0.length
  cur : ∀ k < i, ∃ s, states[k]? = some s ∧ TreeInv p ((suiteOf p H).node skSeed pubSeed k 0) [] 0 (fun i => 2 ^ i) (fun _ => []) s
  rest : ∀ k, i ≤ k → states[k]? = st0[k]?
  sigs : ∀ k < i, k < sigs.length → sigs[k]? = some ((suiteOf p H).wotsSig skSeed pubSeed
      ((suiteOf p H).node skSeed pubSeed k 0 p.tree_height 0) (k + 1) 0 0).flatten
  addr : IsOts addr i 0 0

theorem fastKeypairLoop_eq (g : p.Good) (hH : ∀ x, (H x).length = p.n) (h3 : 3 ≤ p.tree_height) (hK : p.bds_k ≤ p.tree_height)
    {skSeed pubSeed : Bytes} {st0 : List BdsState} {sg0 : List Bytes} (sh : ∀ s ∈ st0, Shape p s ∧ s.stackoffset = 0) :
    ∀ (k i : Nat) (states : List BdsState) (sigs : List Bytes) (addr : Addr), i + k < st0.length → i + k ≤ sg0.length →
      GenInv H p skSeed pubSeed st0 sg0 i states sigs addr →
      ∃ states' sigs' addr', fastKeypairLoop H p skSeed pubSeed k i states sigs addr = some (states', sigs', addr') ∧
        GenInv H p skSeed pubSeed st0 sg0 (i + k) states' sigs' addr' := by
  intro k
  induction k with
  | zero => intro i states sigs addr _ _ gi; exact ⟨states, sigs, addr, rfl, gi⟩
  | succ k ih =>
    intro i states sigs addr hk hk' gi
    have hi : i < st0.length := by omega
    obtain ⟨hsh, hso⟩ := sh st0[i] (List.getElem_mem hi)
    obtain ⟨s', e1, ti, _, _⟩ := treehashInit_eq (treeCtx_suite g hH skSeed pubSeed i 0) g.th_lt h3 hK (addr := addr)
      ⟨gi.addr.h0, gi.addr.h1, gi.addr.h2⟩ hsh hso
    have ha : IsOts (setLayerAddr addr (i + 1)) (i + 1) 0 0 := ⟨rfl, gi.addr.h1, gi.addr.h2, gi.addr.h3, gi.addr.h4⟩
    obtain ⟨w1, w2⟩ := wotsSign_eq (H := H) g skSeed pubSeed (msg := (suiteOf p H).node skSeed pubSeed i 0 p.tree_height 0)
      (node_length g hH _ _ _ _ _ _) _ ha
    have hsl := gi.sigs_len
    have hstl := gi.states_len
    have hcur : states[i]? = some st0[i] := by rw [gi.rest i (Nat.le_refl _), List.getElem?_eq_getElem hi]
    obtain ⟨a, b, c, e2, gi'⟩ := ih (i + 1) (states.set i s')
      (sigs.set i (wotsSign H p ((suiteOf p H).node skSeed pubSeed i 0 p.tree_height 0) skSeed pubSeed (setLayerAddr addr (i + 1))).1.flatten)
      (wotsSign H p ((suiteOf p H).node skSeed pubSeed i 0 p.tree_height 0) skSeed pubSeed (setLayerAddr addr (i + 1))).2
      (by omega) (by omega) (by
        refine ⟨by rw [List.length_set]; exact hstl, by rw [List.length_set]; exact hsl, ?_, ?_, ?_, w2⟩
        · intro j hj
          by_cases hji : j = i
          · subst hji
            exact ⟨s', by rw [List.getElem?_set_self (by omega)], ti⟩
          · rw [List.getElem?_set_ne (by omega)]
            exact gi.cur j (by omega)
        · intro j hj
          rw [List.getElem?_set_ne (by omega)]
          exact gi.rest j (by omega)
        · intro j hj hjl
          rw [List.length_set] at hjl
          by_cases hji : j = i
          · subst hji
            rw [List.getElem?_set_self (by omega), w1]
          · rw [List.getElem?_set_ne (by omega)]
            exact gi.sigs j (by omega) hjl)
    refine ⟨a, b, c, ?_, by rw [show i + (k + 1) = i + 1 + k by omega]; exact gi'⟩
    rw [fastKeypairLoop, hcur]
    simp only [Option.bind_eq_bind, Option.bind_some, e1]
    rw [setA_some (by omega)]
    simp only [Option.bind_some]
    exact e2

/-- Key generation from buffers with any content.  The states of the next trees keep what was in the secret key buffer,
but for two counters. -/
theorem fastXmssmtKeypair_run (f : FastMt p) (hH : ∀ x, (H x).length = p.n) (pk sk sA sB sC : Bytes)
    (hpk : pk.length = 2 * p.n) (hsk : sk.length = p.sk_bytes)
    (hA : sA.length = p.n) (hB : sB.length = p.n) (hC : sC.length = p.n) :
    ∃ st0 sg0 sta sigs ad sd s', deserializeStates p sk = some (st0, sg0) ∧
      fastKeypairLoop H p sA sC (p.d - 1) 0 (st0.map fun s => { s with stackoffset := 0, nextLeaf := 0 }) sg0 (setLayerAddr Addr.zero 0) =
        some (sta, sigs, ad) ∧ sta[p.d - 1]? = some sd ∧ treehashInit H p sd sA sC ad = some ((suiteOf p H).root sA sC, s') ∧
      ∃ states, states = sta.set (p.d - 1) s' ∧ ExtShape p states sigs ∧
      (∀ z : Nat → Option Bytes, (∀ i x, z i = some x → (st0[p.d + i]?.bind fun s => s.auth[p.tree_height - 1]?) = some x) →
        MtInv H p sA sC z 0 states sigs) ∧
      (∀ k, p.d ≤ k → states[k]? = st0[k]?.map fun s => { s with stackoffset := 0, nextLeaf := 0 }) ∧
      fastXmssmtKeypair H p pk sk (sA ++ sB ++ sC) =
        some ((suiteOf p H).root sA sC ++ sC, (Key.mk sA sB ((suiteOf p H).root sA sC) sC).fast p 0 states sigs) := by
  have g := f.good
  have hth := g.th_lt
  have hd := f.d
  have hth4 := f.th
  have hK0 := f.k
  have hsk' := f.sk
  rw [fastSkBytes] at hsk'
  obtain ⟨st0, sg0, e, sh, _, _⟩ := deserialize_any (p := p) sk (by rw [hsk, f.sk])
  have hst := sh.states_len
  have hsg := sh.sigs_len
  set st1 := st0.map (fun s => { s with stackoffset := 0, nextLeaf := 0 }) with hst1
  have hl1 : st1.length = 2 * p.d - 1 := by rw [hst1, List.length_map]; exact hst
  have sh1 : ∀ s ∈ st1, Shape p s ∧ s.stackoffset = 0 := by
    intro s hs
    obtain ⟨t, ht, rfl⟩ := List.mem_map.mp hs
    exact ⟨(Shape.fresh (N := fun _ _ => []) (sh.states_mem t ht)).shape, rfl⟩
  obtain ⟨sta, sga, ad, e2, gi⟩ := fastKeypairLoop_eq (H := H) g hH (by omega) (by omega) (skSeed := sA) (pubSeed := sC) (sg0 := sg0) sh1 (p.d - 1) 0 st1 sg0
    (setLayerAddr Addr.zero 0) (by omega) (by omega)
    ⟨rfl, rfl, fun _ h => by omega, fun _ _ => rfl, fun _ h => by omega, ⟨rfl, rfl, rfl, rfl, rfl⟩⟩
  rw [Nat.zero_add] at gi
  have hi : p.d - 1 < st1.length := by omega
  obtain ⟨hsh, hso⟩ := sh1 st1[p.d - 1] (List.getElem_mem hi)
  obtain ⟨s', e1, ti, _, _⟩ := treehashInit_eq (treeCtx_suite g hH sA sC (p.d - 1) 0) hth (by omega) (by omega) (addr := ad)
    ⟨gi.addr.h0, gi.addr.h1, gi.addr.h2⟩ hsh hso
  have hcur : sta[p.d - 1]? = some st1[p.d - 1] := by rw [gi.rest _ (Nat.le_refl _), List.getElem?_eq_getElem hi]
  have hla := gi.states_len
  have hsa := gi.sigs_len
  have hmt : ∀ z : Nat → Option Bytes, (∀ i x, z i = some x → (st0[p.d + i]?.bind fun s => s.auth[p.tree_height - 1]?) = some x) →
      MtInv H p sA sC z 0 (sta.set (p.d - 1) s') sga := by
    intro z hz
    refine ⟨fun _ j => 2 ^ j, fun _ => 0, by rw [List.length_set]; omega, by omega, ?_, Plan.init _ _ _ (by omega)⟩
    intro k hk
    have z1 : ∀ j, 0 / B p.tree_height j = 0 := fun j => Nat.zero_div _
    have z2 : ∀ j, leafAt p.tree_height 0 j = 0 := fun j => by rw [leafAt, Nat.zero_div, Nat.zero_mod]
    have hc : ∃ s, (sta.set (p.d - 1) s')[k]? = some s ∧
        TreeInv p ((suiteOf p H).node sA sC k 0) [] 0 (fun i => 2 ^ i) (fun _ => []) s := by
      by_cases hkd : k = p.d - 1
      · subst hkd
        exact ⟨s', by rw [List.getElem?_set_self (by omega)], ti⟩
      · rw [List.getElem?_set_ne (by omega)]
        exact gi.cur k (by omega)
    obtain ⟨s, h1, h2⟩ := hc
    refine ⟨s, h1, ⟨[], fun _ => [], by rw [z1, z2]; exact h2⟩, fun hk1 => ?_⟩
    have hdk : p.d + k < st0.length := by omega
    refine ⟨{ st0[p.d + k] with stackoffset := 0, nextLeaf := 0 }, ?_, rfl, Nat.zero_le _, Shape.fresh (sh.states_mem _ (List.getElem_mem _)), ?_, ?_⟩
    · rw [List.getElem?_set_ne (by omega), gi.rest _ (by omega), hst1, List.getElem?_map, List.getElem?_eq_getElem hdk]; rfl
    · intro x hx _
      have h5 := hz k x hx
      rw [List.getElem?_eq_getElem hdk, Option.bind_some] at h5
      exact h5
    · rw [GoodSig, z1, z1, z2]
      exact gi.sigs k (by omega) (by omega)
  have shx := (hmt (fun _ => none) (fun _ _ h => by cases h)).ext g hH
  have hroot : (suiteOf p H).node sA sC (p.d - 1) 0 p.tree_height 0 = (suiteOf p H).root sA sC := by
    rw [Rfc.Suite.root, Rfc.Suite.treeRoot, g.hp_eq]; rfl
  rw [hroot] at e1
  refine ⟨st0, sg0, sta, sga, ad, _, s', e, e2, hcur, e1, _, rfl, shx, hmt, ?_, ?_⟩
  · intro k hk
    rw [List.getElem?_set_ne (by omega), gi.rest k (by omega), hst1, List.getElem?_map]
  set T := (suiteOf p H).root sA sC with hT
  have hTl : T.length = p.n := node_length g hH _ _ _ _ _ _
  have hxl := extBytes_length shx
  obtain ⟨k0, k1, k2, k3, k4, k5, rfl, i0, i1, i2, i3, i4, i5⟩ : ∃ k0 k1 k2 k3 k4 k5 : Bytes, sk = k0 ++ k1 ++ k2 ++ k3 ++ k4 ++ k5 ∧
      k0.length = p.index_bytes ∧ k1.length = p.n ∧ k2.length = p.n ∧ k3.length = p.n ∧ k4.length = p.n ∧
      k5.length = (2 * p.d - 1) * bdsStateBytes p + (p.d - 1) * p.wots_sig_bytes := by
    refine ⟨sk.take p.index_bytes, (sk.drop p.index_bytes).take p.n, (sk.drop (p.index_bytes + p.n)).take p.n,
      (sk.drop (p.index_bytes + p.n + p.n)).take p.n, (sk.drop (p.index_bytes + p.n + p.n + p.n)).take p.n,
      sk.drop (p.index_bytes + p.n + p.n + p.n + p.n), ?_, ?_, ?_, ?_, ?_, ?_, ?_⟩
    · rw [← List.take_add, ← List.take_add, ← List.take_add, ← List.take_add, List.take_append_drop]
    all_goals simp; omega
  obtain ⟨q0, q1, rfl, j0, j1⟩ : ∃ q0 q1 : Bytes, pk = q0 ++ q1 ∧ q0.length = p.n ∧ q1.length = p.n :=
    ⟨_, _, (List.take_append_drop p.n pk).symm, by simp; omega, by simp; omega⟩
  rw [fastXmssmtKeypair, if_neg (by omega), e]
  obtain ⟨Z, hZ⟩ : ∃ Z : Bytes, Z = List.replicate p.index_bytes 0 := ⟨_, rfl⟩
  have hZl : Z.length = p.index_bytes := by rw [hZ, List.length_replicate]
  have w1 : wr (k0 ++ k1 ++ k2 ++ k3 ++ k4 ++ k5) 0 Z = some (Z ++ k1 ++ k2 ++ k3 ++ k4 ++ k5) := by
    rw [wr_mid (buf := k0 ++ k1 ++ k2 ++ k3 ++ k4 ++ k5) (off := 0) (y := k0) [] (k1 ++ k2 ++ k3 ++ k4 ++ k5) (by simp) rfl (by omega)]; simp
  have r1 : rd (sA ++ sB ++ sC) 0 (2 * p.n) = some (sA ++ sB) := rd_mid [] sC (by simp) rfl (by simp [hA, hB]; omega)
  have w2 : wr (Z ++ k1 ++ k2 ++ k3 ++ k4 ++ k5) p.index_bytes (sA ++ sB) = some (Z ++ sA ++ sB ++ k3 ++ k4 ++ k5) := by
    rw [wr_mid (y := k1 ++ k2) Z (k3 ++ k4 ++ k5) (by simp) hZl.symm (by simp; omega)]; simp
  have r2 : rd (sA ++ sB ++ sC) (2 * p.n) p.n = some sC := rd_mid (sA ++ sB) [] (by simp) (by simp [hA, hB]; omega) hC.symm
  have w3 : wr (Z ++ sA ++ sB ++ k3 ++ k4 ++ k5) (p.index_bytes + 3 * p.n) sC = some (Z ++ sA ++ sB ++ k3 ++ sC ++ k5) :=
    wr_mid (y := k4) (Z ++ sA ++ sB ++ k3) k5 rfl (by simp only [List.length_append]; omega) (by omega)
  have r3 : rd (Z ++ sA ++ sB ++ k3 ++ sC ++ k5) (p.index_bytes + 3 * p.n) p.n = some sC :=
    rd_mid (Z ++ sA ++ sB ++ k3) k5 rfl (by simp only [List.length_append]; omega) hC.symm
  have r4 : rd (Z ++ sA ++ sB ++ k3 ++ sC ++ k5) p.index_bytes p.n = some sA :=
    rd_mid Z (sB ++ k3 ++ sC ++ k5) (by simp) hZl.symm hA.symm
  have w4 : wr (q0 ++ q1) p.n sC = some (q0 ++ sC) := by
    rw [wr_mid (y := q1) q0 [] (by simp) j0.symm (by omega)]; simp
  have r6 : rd (q0 ++ sC) p.n p.n = some sC := rd_mid q0 [] (by simp) j0.symm hC.symm
  have w5 : wr (q0 ++ sC) 0 T = some (T ++ sC) := by
    rw [wr_mid (buf := q0 ++ sC) (off := 0) (y := q0) [] sC (by simp) rfl (by omega)]; simp
  have r5 : rd (T ++ sC) 0 p.n = some T := rd_mid [] sC (by simp) rfl hTl.symm
  have w6 : wr (Z ++ sA ++ sB ++ k3 ++ sC ++ k5) (p.index_bytes + 2 * p.n) T = some (skHead Z sA sB T sC ++ k5 ++ []) := by
    rw [wr_mid (y := k3) (Z ++ sA ++ sB) (sC ++ k5) (by simp) (by simp only [List.length_append]; omega) (by omega)]
    simp [skHead]
  have w7 := serialize_eq (p := p) (states := sta.set (p.d - 1) s') (sigs := sga) (skHead Z sA sB T sC) k5 []
    (skHead_length hZl hA hB hTl hC) (by rw [hxl, i5])
  rw [hst1] at e2
  rw [← hZ]
  simp only [Option.bind_eq_bind, Option.bind_some, w1, r1, w2, r2, w3, r3, w4, r4, r6, e2, hcur, e1, w5, r5, w6, w7,
    Key.fast]
  have hz : Z = Rfc.toByte 0 p.index_bytes := by
    rw [hZ]
    unfold Rfc.toByte
    simp only [Nat.zero_div]
    rw [List.map_const', List.length_range]; rfl
  rw [hz, List.append_nil]

/-- The result of `fastXmssmtKeypair_run` without the intermediate states. -/
theorem fastXmssmtKeypair_eq (f : FastMt p) (hH : ∀ x, (H x).length = p.n) (pk sk sA sB sC : Bytes)
    (hpk : pk.length = 2 * p.n) (hsk : sk.length = p.sk_bytes)
    (hA : sA.length = p.n) (hB : sB.length = p.n) (hC : sC.length = p.n) :
    ∃ st0 sg0 states sigs, deserializeStates p sk = some (st0, sg0) ∧ 
      (∀ z : Nat → Option Bytes, (∀ i x, z i = some x → (st0[p.d + i]?.bind fun s => s.auth[p.tree_height - 1]?) = some x) →
        MtInv H p sA sC z 0 states sigs) ∧
      (∀ k, p.d ≤ k → states[k]? = st0[k]?.map fun s => { s with stackoffset := 0, nextLeaf := 0 }) ∧
      fastXmssmtKeypair H p pk sk (sA ++ sB ++ sC) =
        some ((suiteOf p H).root sA sC ++ sC, (Key.mk sA sB ((suiteOf p H).root sA sC) sC).fast p 0 states sigs) := by
  obtain ⟨st0, sg0, sta, sigs, ad, sd, s', e, -, -, -, states, -, -, h1, h2, h3⟩ := fastXmssmtKeypair_run f hH pk sk sA sB sC hpk hsk hA hB hC
  exact ⟨st0, sg0, states, sigs, e, h1, h2, h3⟩

end Xmss
