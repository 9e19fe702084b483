import Verif.Proof.TraceRel
import Verif.Proof.MtSign
/-
The hash calls of the fast sign functions: those for the message and its WOTS signature, then those of the traversal.
-/
namespace Xmss
open Tr
open Calls (rep)

variable {H : Bytes → Bytes} {p : Params}

/-- `trsimp` with further equations. -/
macro "trs" "[" l:Lean.Parser.Tactic.simpLemma,* "]" : tactic => `(tactic| simp only [Tr.pure_eq, Tr.opt_none, Tr.opt_some, Tr.lift_none, Tr.lift_some, Tr.bind_fail,
  Tr.bind_mk, Tr.tell_fail, Tr.tell_mk_nil, Tr.tell_mk, Tr.tell_nil, Tr.tell_tell, Tr.tell_lift, Tr.app_nil, Tr.nil_app, $l,*])

theorem tr_cases {α : Type} (t : Tr α) : t = Tr.fail ∨ ∃ a l, t = Tr.mk a l := by
  cases t with
  | none => exact Or.inl rfl
  | some r => exact Or.inr ⟨r.1, r.2, rfl⟩

theorem tr_bind_assoc {α β γ : Type} (t : Tr α) (f : α → Tr β) (g : β → Tr γ) : (t >>= f) >>= g = t >>= fun a => f a >>= g := by
  rcases tr_cases t with rfl | ⟨a, l, rfl⟩
  · rfl
  · rw [Tr.bind_mk, Tr.bind_mk]
    rcases tr_cases (f a) with e | ⟨b, l', e⟩
    · rw [e]; rfl
    · rw [e, Tr.tell_mk, Tr.bind_mk, Tr.bind_mk, Tr.tell_tell]

/-- The hash calls of one WOTS signature. -/
def wotsCalls (p : Params) (H : Bytes → Bytes) (M : Bytes) : List Nat :=
  rep p.wots_len (Calls.gen p) ++ rep ((suiteOf p H).wotsDigits M).sum (Calls.f p)

/-- `xmssTraverse` with record: xmss_core_fast.c:705-708. -/
def xmssTraverseT (H : Bytes → Bytes) (p : Params) (skSeed pubSeed : Bytes) (idx : Nat) (s : BdsState) (a : Addr) : Tr BdsState :=
  if idx < (1 <<< p.tree_height) - 1 then do
    let s ← bdsRoundT H p s idx skSeed pubSeed a
    let r ← bdsTreehashUpdateT H p s (p.insts >>> 1) skSeed pubSeed a
    pure r.1
  else pure s

theorem xmssTraverseT_val (skSeed pubSeed : Bytes) (idx : Nat) (s : BdsState) (a : Addr) :
    val (xmssTraverseT H p skSeed pubSeed idx s a) = xmssTraverse H p skSeed pubSeed idx s a := by
  vsimp [xmssTraverseT, xmssTraverse, bdsRoundT_val, bdsTreehashUpdateT_val]

/-- `mtTraverse` with record: xmss_core_fast.c:929-979. -/
def mtTraverseT (H : Bytes → Bytes) (p : Params) (skSeed pubSeed : Bytes) (idx : Nat) (states : List BdsState)
    (sigs : List Bytes) (oa : Addr) : Tr MtLocals := do
  let addr := setTreeAddr Addr.zero ((idx >>> p.tree_height) + 1)
  let states ← (if (1 + idx >>> p.tree_height) * (1 <<< p.tree_height) + (idx &&& ((1 <<< p.tree_height) - 1)) <
      2 ^ p.full_height then do
      let next ← Tr.opt states[p.d]?
      let next ← bdsStateUpdateT H p next skSeed pubSeed addr
      pure (states.set p.d next)
    else pure states : Tr (List BdsState))
  mtLoopT H p skSeed pubSeed idx p.d 0
    { states := states, sigs := sigs, updates := p.insts >>> 1, swap := 0, addr := addr, otsAddr := oa }

theorem mtTraverseT_val (skSeed pubSeed : Bytes) (idx : Nat) (st : List BdsState) (sg : List Bytes) (a : Addr) :
    val (mtTraverseT H p skSeed pubSeed idx st sg a) = mtTraverse H p skSeed pubSeed idx st sg a := by
  vsimp [mtTraverseT, mtTraverse, bdsStateUpdateT_val, mtLoopT_val]

/-- `xmss_core_sign` behind the exhaustion check, in terms of the traversal. -/
theorem fastXmssSignBodyT_bind (g : p.Good) (hH : ∀ x, (H x).length = p.n) (hd : p.d = 1) (hI : p.index_bytes = 4)
    {ib skSeed skPrf root pubSeed y z sm0 old post m : Bytes} {s : BdsState} {idx : Nat}
    (hib : ib.length = p.index_bytes) (h1 : skSeed.length = p.n) (h2 : skPrf.length = p.n)
    (h3 : root.length = p.n) (h4 : pubSeed.length = p.n) (hy : y.length = bdsStateBytes p)
    (hsm : sm0.length = p.sig_bytes) (hold : old.length = m.length) (hal : s.auth.flatten.length = p.tree_height * p.n) :
    ∃ a, IsSub a 0 0 ∧ ((∀ s', xmssTraverse H p skSeed pubSeed idx s a = some s' → (stateBytes s').length = bdsStateBytes p) →
      fastXmssSignBodyT H p (skHead ib skSeed skPrf root pubSeed ++ y ++ z) (sm0 ++ old ++ post) m s [] idx =
      tell (Calls.prf p ++ Calls.msg p m.length ++ wotsCalls p H ((suiteOf p H).digest ((suiteOf p H).PRF skPrf (Rfc.toByte idx 32)) root idx m))
       (xmssTraverseT H p skSeed pubSeed idx s a >>= fun s' => pure
           { ret := 0
             sk := skHead (Rfc.toByte (idx + 1) p.index_bytes) skSeed skPrf root pubSeed ++ extBytes [s'] [] ++ z
             sm := Rfc.toByte idx p.index_bytes ++ (suiteOf p H).PRF skPrf (Rfc.toByte idx 32) ++
               ((suiteOf p H).wotsSig skSeed pubSeed ((suiteOf p H).digest ((suiteOf p H).PRF skPrf (Rfc.toByte idx 32)) root
                 idx m) 0 0 idx).flatten ++ s.auth.flatten ++ m ++ post
             smlen := p.sig_bytes + m.length
             leaves := s'.leaves })) := by
  have hfit := g.prefix_fits
  have hsig := g.sig_eq'
  rw [hd, one_mul, Nat.add_mul] at hsig
  have hsw := g.sig_wots
  rw [List.append_assoc]
  obtain ⟨-, r1, r2, -, r4, w0⟩ := skPhase (p := p) (y ++ z) hib h1 h2 h3 h4 (idx + 1)
  obtain ⟨-, -, -, r3, -, -⟩ := skPhase (p := p) (y ++ z) (toByte_length (idx + 1) p.index_bytes) h1 h2 h3 h4 (idx + 1)
  set R := (suiteOf p H).PRF skPrf (Rfc.toByte idx 32) with hR
  have hRl : R.length = p.n := hH _
  have eR : prf H p (ullToBytes 32 idx) skPrf = R := by rw [prf_eq, ullToBytes_eq]
  obtain ⟨sm1, sm2, e1, e2, f2⟩ := hashPhase (H := H) (R := R) (post := post) (m := m) g hRl h3 hsm hold idx
  set M := (suiteOf p H).digest R root idx m with hM
  have hMl : M.length = p.n := hH _
  obtain ⟨w1, w2⟩ := wotsSign_eq (H := H) g (layer := 0) (tree := 0) (ots := idx) skSeed pubSeed hMl
      (setOtsAddr (setType Addr.zero typeOts) idx) ⟨rfl, rfl, rfl, rfl, rfl⟩
  set W := wotsSign H p M skSeed pubSeed (setOtsAddr (setType Addr.zero typeOts) idx) with hW
  have hwl : W.1.flatten.length = p.wots_len * p.n := by rw [w1]; exact wotsSig_flat_length g hH skSeed pubSeed M 0 0 idx
  refine ⟨W.2, ⟨w2.h0, w2.h1, w2.h2⟩, fun hlen => ?_⟩
  obtain ⟨b3, e3, f3⟩ := f2.wr (x := Rfc.toByte idx p.index_bytes) (off := 0)
    (by rw [toByte_length, List.length_nil]; omega) rfl
  obtain ⟨b4, e4, f4⟩ := f3.wr (x := R) (off := 4) (by simp only [List.length_append, toByte_length, List.length_nil]; omega)
    (by simp only [List.length_append, toByte_length, List.length_nil]; omega)
  obtain ⟨b5, e5, f5⟩ := f4.wr (x := W.1.flatten) (off := 4 + p.n)
    (by simp only [List.length_append, toByte_length, List.length_nil]; omega)
    (by simp only [List.length_append, toByte_length, List.length_nil]; omega)
  obtain ⟨b6, e6, f6⟩ := f5.wr (x := s.auth.flatten) (off := 4 + p.n + p.wots_sig_bytes)
    (by simp only [List.length_append, toByte_length, List.length_nil]; omega)
    (by simp only [List.length_append, toByte_length, List.length_nil]; omega)
  have hb6 := f6.full (by simp only [List.length_append, toByte_length, List.length_nil]; omega)
  have e7 : wr b6 (4 + p.n + p.wots_sig_bytes + p.tree_height * p.n) m = some b6 := by
    rw [wr_mid (y := m) _ post (by rw [hb6, List.append_assoc _ m post])
      (by simp only [List.length_append, toByte_length, List.length_nil]; omega) rfl, hb6]
    simp only [List.append_assoc]
  have w0' : wr (skHead ib skSeed skPrf root pubSeed ++ (y ++ z)) 0 (ullToBytes 4 (idx + 1)) =
      some (skHead (Rfc.toByte (idx + 1) p.index_bytes) skSeed skPrf root pubSeed ++ (y ++ z)) := by
    rw [← hI]; exact w0
  have e3' : wr sm2 0 (ullToBytes 4 idx) = some b3 := by rw [ullToBytes_eq, ← hI]; exact e3
  rw [fastXmssSignBodyT]
  simp only [prfT_eq]
  trs [r1, r2, r4, w0', eR, e1, r3]
  rw [if_neg (by omega), hashMessageT_eq, e2]
  trs [e3', e4]
  rw [wotsSignT_eq g hMl, ← hW]
  trs [e5, e6]
  have hfold : (if idx < (1 <<< p.tree_height) - 1 then do
      let s ← bdsRoundT H p s idx skSeed pubSeed W.2
      let r ← bdsTreehashUpdateT H p s (p.insts >>> 1) skSeed pubSeed W.2
      mk r.1 []
      else mk s []) = xmssTraverseT H p skSeed pubSeed idx s W.2 := rfl
  rw [hfold]
  rcases tr_cases (xmssTraverseT H p skSeed pubSeed idx s W.2) with hT | ⟨s', l, hT⟩
  · rw [hT]; trsimp
  have hT' : xmssTraverse H p skSeed pubSeed idx s W.2 = some s' := by rw [← xmssTraverseT_val, hT]; rfl
  have hbds : (extBytes [s'] []).length = bdsStateBytes p := by
    simp only [extBytes, List.map_cons, List.map_nil, List.flatten_cons, List.flatten_nil, List.append_nil]
    exact hlen s' hT'
  have e8 := serialize_eq (p := p) (states := [s']) (sigs := []) (skHead (Rfc.toByte (idx + 1) p.index_bytes) skSeed skPrf root pubSeed) y z
    (skHead_length (toByte_length _ _) h1 h2 h3 h4) (by rw [hbds, hy])
  rw [List.append_assoc] at e8
  rw [hT]
  trs [e7, e8]
  rw [wotsCalls]
  simp only [List.append_assoc]
  congr 1
  simp only [FastOut.mk.injEq, SignOut.mk.injEq, true_and, and_true]
  refine ⟨?_, ?_⟩
  · rw [hb6, ← w1]
    simp only [List.append_assoc, List.nil_append]
  · omega

/-- `xmssmt_core_sign` behind the exhaustion check, in terms of the traversal. -/
theorem fastXmssmtSignBodyT_bind (g : p.Good) (hH : ∀ x, (H x).length = p.n)
    {ib skSeed skPrf root pubSeed y z sm0 old post m : Bytes} {states : List BdsState} {sigs : List Bytes} {idx : Nat}
    (hib : ib.length = p.index_bytes) (h1 : skSeed.length = p.n) (h2 : skPrf.length = p.n)
    (h3 : root.length = p.n) (h4 : pubSeed.length = p.n)
    (hy : y.length = (2 * p.d - 1) * bdsStateBytes p + (p.d - 1) * p.wots_sig_bytes)
    (hsm : sm0.length = p.sig_bytes) (hold : old.length = m.length) (sh : ExtShape p states sigs) :
    ∃ oa, IsOts oa 0 (idx / 2 ^ p.tree_height) (idx % 2 ^ p.tree_height) ∧
      ((∀ v, mtTraverse H p skSeed pubSeed idx states sigs oa = some v →
        (extBytes v.states v.sigs).length = (2 * p.d - 1) * bdsStateBytes p + (p.d - 1) * p.wots_sig_bytes) →
      fastXmssmtSignBodyT H p (skHead ib skSeed skPrf root pubSeed ++ y ++ z) (sm0 ++ old ++ post) m states sigs idx =
      tell (Calls.prf p ++ Calls.msg p m.length ++ wotsCalls p H ((suiteOf p H).digest ((suiteOf p H).PRF skPrf (Rfc.toByte idx 32)) root idx m))
       (mtTraverseT H p skSeed pubSeed idx states sigs oa >>= fun v => pure
           { ret := 0
             sk := skHead (Rfc.toByte (idx + 1) p.index_bytes) skSeed skPrf root pubSeed ++ extBytes v.states v.sigs ++ z
             sm := Rfc.toByte idx p.index_bytes ++ (suiteOf p H).PRF skPrf (Rfc.toByte idx 32) ++
               ((suiteOf p H).wotsSig skSeed pubSeed ((suiteOf p H).digest ((suiteOf p H).PRF skPrf (Rfc.toByte idx 32)) root
                 idx m) 0 (idx / 2 ^ p.tree_height) (idx % 2 ^ p.tree_height)).flatten ++
               (states.getD 0 default).auth.flatten ++ storedLayers states sigs (p.d - 1) 1 ++ m ++ post
             smlen := p.sig_bytes + m.length
             leaves := totalLeaves v.states })) := by
  have hfit := g.prefix_fits
  have hsig := g.sig_eq'
  have hdpos := g.d_pos
  have hsw := g.sig_wots
  have hB : (p.wots_len + p.tree_height) * p.n = p.wots_sig_bytes + p.tree_height * p.n := by rw [hsw]; ring
  rw [hB] at hsig
  have hdB : p.d * (p.wots_sig_bytes + p.tree_height * p.n) =
      p.wots_sig_bytes + p.tree_height * p.n + (p.d - 1) * (p.wots_sig_bytes + p.tree_height * p.n) := by
    obtain ⟨k, hk⟩ : ∃ k, p.d = k + 1 := ⟨p.d - 1, by omega⟩
    rw [hk, Nat.add_sub_cancel]; ring
  rw [hdB] at hsig
  rw [List.append_assoc]
  obtain ⟨-, r1, r2, -, r4, w0⟩ := skPhase (p := p) (y ++ z) hib h1 h2 h3 h4 (idx + 1)
  obtain ⟨-, -, -, r3, -, -⟩ := skPhase (p := p) (y ++ z) (toByte_length (idx + 1) p.index_bytes) h1 h2 h3 h4 (idx + 1)
  set R := (suiteOf p H).PRF skPrf (Rfc.toByte idx 32) with hR
  have hRl : R.length = p.n := hH _
  have eR : prf H p (ullToBytes 32 idx) skPrf = R := by rw [prf_eq, ullToBytes_eq]
  obtain ⟨sm1, sm2, e1, e2, f2⟩ := hashPhase (H := H) (R := R) (post := post) (m := m) g hRl h3 hsm hold idx
  set M := (suiteOf p H).digest R root idx m with hM
  have hMl : M.length = p.n := hH _
  have hleaf : idx &&& ((1 <<< p.tree_height) - 1) = idx % 2 ^ p.tree_height := by
    rw [Nat.one_shiftLeft, Nat.and_two_pow_sub_one_eq_mod]
  have htree : idx >>> p.tree_height = idx / 2 ^ p.tree_height := Nat.shiftRight_eq_div_pow _ _
  obtain ⟨w1, w2⟩ := wotsSign_eq (H := H) g (layer := 0) (tree := idx / 2 ^ p.tree_height) (ots := idx % 2 ^ p.tree_height)
      skSeed pubSeed hMl
      (setOtsAddr (setTreeAddr (setLayerAddr (setType Addr.zero typeOts) 0) (idx / 2 ^ p.tree_height)) (idx % 2 ^ p.tree_height))
      ⟨rfl, rfl, rfl, rfl, rfl⟩
  set W := wotsSign H p M skSeed pubSeed
    (setOtsAddr (setTreeAddr (setLayerAddr (setType Addr.zero typeOts) 0) (idx / 2 ^ p.tree_height)) (idx % 2 ^ p.tree_height)) with hW
  have hwl : W.1.flatten.length = p.wots_len * p.n := by
    rw [w1]; exact wotsSig_flat_length g hH skSeed pubSeed M 0 _ _
  have hst0 : 0 < states.length := by have := sh.states_len; omega
  have hal := (sh.states_mem _ (List.getElem_mem hst0)).auth_flat
  have e0 : states.getD 0 default = states[0] := by
    rw [List.getD_eq_getElem?_getD, List.getElem?_eq_getElem hst0]; rfl
  refine ⟨W.2, w2, fun hlen => ?_⟩
  obtain ⟨b3, e3, f3⟩ := f2.wr (x := Rfc.toByte idx p.index_bytes) (off := 0)
    (by rw [toByte_length, List.length_nil]; omega) rfl
  obtain ⟨b4, e4, f4⟩ := f3.wr (x := R) (off := p.index_bytes) (by simp only [List.length_append, toByte_length, List.length_nil]; omega)
    (by simp only [List.length_append, toByte_length, List.length_nil]; omega)
  obtain ⟨b5, e5, f5⟩ := f4.wr (x := W.1.flatten) (off := p.index_bytes + p.n)
    (by simp only [List.length_append, toByte_length, List.length_nil]; omega)
    (by simp only [List.length_append, toByte_length, List.length_nil]; omega)
  obtain ⟨b6, e6, f6⟩ := f5.wr (x := states[0].auth.flatten) (off := p.index_bytes + p.n + p.wots_sig_bytes)
    (by simp only [List.length_append, toByte_length, List.length_nil]; omega)
    (by simp only [List.length_append, toByte_length, List.length_nil]; omega)
  obtain ⟨b7, e7, f7⟩ := mtCopyLoop_eq sh (p.d - 1) 1 _ _ b6 p.sig_bytes
    (p.index_bytes + p.n + p.wots_sig_bytes + p.tree_height * p.n) (Nat.le_refl _) (by omega) f6
    (by simp only [List.length_append, toByte_length, List.length_nil]; omega)
    (by simp only [List.length_append, toByte_length, List.length_nil]; omega)
  have hsl := storedLayers_length sh (p.d - 1) 1 (Nat.le_refl _) (by omega)
  have hb7 := f7.full (by simp only [List.length_append, toByte_length, List.length_nil]; omega)
  set off := p.index_bytes + p.n + p.wots_sig_bytes + p.tree_height * p.n +
    (p.d - 1) * (p.wots_sig_bytes + p.tree_height * p.n) with hoff
  have hoff' : off = p.sig_bytes := by omega
  have e8 : wr b7 off m = some b7 := by
    rw [wr_mid (y := m) _ post (by rw [hb7, List.append_assoc _ m post])
      (by simp only [List.length_append, toByte_length, List.length_nil]; omega) rfl, hb7]
    simp only [List.append_assoc]
  have e3' : wr sm2 0 (ullToBytes p.index_bytes idx) = some b3 := by rw [ullToBytes_eq]; exact e3
  rw [fastXmssmtSignBodyT]
  simp only [prfT_eq]
  trs [r1, r2, r4, w0, eR, e1, r3]
  rw [if_neg (by omega), hashMessageT_eq, e2]
  trs [e3', e4, htree, hleaf]
  rw [wotsSignT_eq g hMl, ← hW]
  trs [e5, List.getElem?_eq_getElem hst0, e6, e7]
  have hfold : mtTraverseT H p skSeed pubSeed idx states sigs W.2 = mtTraverseT H p skSeed pubSeed idx states sigs W.2 := rfl
  conv at hfold => lhs; rw [mtTraverseT]
  simp only [htree, hleaf, Tr.pure_eq] at hfold
  rw [← tr_bind_assoc, hfold]
  rcases tr_cases (mtTraverseT H p skSeed pubSeed idx states sigs W.2) with hT | ⟨v, l, hT⟩
  · rw [hT]; trsimp
  have hT' : mtTraverse H p skSeed pubSeed idx states sigs W.2 = some v := by rw [← mtTraverseT_val, hT]; rfl
  have e9 := serialize_eq (p := p) (states := v.states) (sigs := v.sigs)
    (skHead (Rfc.toByte (idx + 1) p.index_bytes) skSeed skPrf root pubSeed) y z
    (skHead_length (toByte_length _ _) h1 h2 h3 h4) (by rw [hy, hlen v hT'])
  rw [List.append_assoc] at e9
  rw [hT]
  trs [e8, e9]
  rw [wotsCalls]
  simp only [List.append_assoc]
  congr 1
  simp only [FastOut.mk.injEq, SignOut.mk.injEq, true_and, and_true]
  refine ⟨?_, ?_⟩
  · rw [hb7, ← w1, e0]
    simp only [List.append_assoc, List.nil_append]
  · rw [hoff']

end Xmss
