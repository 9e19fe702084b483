import Verif.Proof.Ltree
import Verif.Spec.AnyAddr
/-
WOTS+ and L-tree under arbitrary addresses: the lemmas of Proof/Hash, Proof/Wots and Proof/Ltree with a general address head.
-/
namespace Xmss.AnyAddr

variable {H : Bytes → Bytes} {p : Params}

/-- Words 0-4 of an address. -/
structure IsAt (a : Addr) (b : Rfc.AdrsHead) : Prop where
  h0 : a.a0 = UInt32.ofNat b.w0
  h1 : a.a1 = UInt32.ofNat b.w1
  h2 : a.a2 = UInt32.ofNat b.w2
  h3 : a.a3 = UInt32.ofNat b.w3
  h4 : a.a4 = UInt32.ofNat b.w4

theorem IsAt.bytes {a : Addr} {b : Rfc.AdrsHead} {chain hash km : Nat} (h : IsAt a b)
    (h5 : a.a5 = UInt32.ofNat chain) (h6 : a.a6 = UInt32.ofNat hash) (h7 : a.a7 = UInt32.ofNat km) :
    addrToBytes a = b.adrs chain hash km := by
  rw [addrToBytes_eq, h.h0, h.h1, h.h2, h.h3, h.h4, h5, h6, h7]
  simp only [toByte4_uint32, Rfc.AdrsHead.adrs, List.append_assoc]

theorem thashH_ltree {a : Addr} {b : Rfc.AdrsHead} {height index : Nat} (h : IsAt a b)
    (h5 : a.a5 = UInt32.ofNat height) (h6 : a.a6 = UInt32.ofNat index) (hH : ∀ x, (H x).length = p.n)
    {l r : Bytes} (hl : l.length = p.n) (pubSeed : Bytes) :
    (thashH H p (l ++ r) pubSeed a).1 =
      (suiteOf p H).randHash pubSeed (b.adrs height index) l r := by
  have hk : ∀ km, addrToBytes (setKeyAndMask a km) = b.adrs height index km :=
    fun km => IsAt.bytes ⟨h.h0, h.h1, h.h2, h.h3, h.h4⟩ h5 h6 rfl
  show H (ullToBytes p.padding_len padH ++ prf H p (addrToBytes (setKeyAndMask a 0)) pubSeed ++
    xorBytes (l ++ r) (prf H p (addrToBytes (setKeyAndMask a 1)) pubSeed ++
      prf H p (addrToBytes (setKeyAndMask a 2)) pubSeed)) = _
  rw [hk, hk, hk, prf_eq, prf_eq, prf_eq, xorBytes_append (by rw [hl]; exact (hH _).symm), ullToBytes_eq]
  rfl

theorem thashF_ots {a : Addr} {b : Rfc.AdrsHead} {chain pos : Nat} (h : IsAt a b)
    (h5 : a.a5 = UInt32.ofNat chain) (h6 : a.a6 = UInt32.ofNat pos) (x pubSeed : Bytes) :
    (thashF H p x pubSeed a).1 =
      (suiteOf p H).chainStep pubSeed (b.adrs chain) pos x := by
  have hk : ∀ km, addrToBytes (setKeyAndMask a km) = b.adrs chain pos km :=
    fun km => IsAt.bytes ⟨h.h0, h.h1, h.h2, h.h3, h.h4⟩ h5 h6 rfl
  show H (ullToBytes p.padding_len padF ++ prf H p (addrToBytes (setKeyAndMask a 0)) pubSeed ++
    xorBytes x (prf H p (addrToBytes (setKeyAndMask a 1)) pubSeed)) = _
  rw [hk, hk, prf_eq, prf_eq, ullToBytes_eq]
  rfl

theorem IsAt.setHash {a : Addr} {b : Rfc.AdrsHead} (h : IsAt a b) (i : Nat) : IsAt (setHashAddr a i) b :=
  ⟨h.h0, h.h1, h.h2, h.h3, h.h4⟩
theorem IsAt.setChain {a : Addr} {b : Rfc.AdrsHead} (h : IsAt a b) (i : Nat) : IsAt (setChainAddr a i) b :=
  ⟨h.h0, h.h1, h.h2, h.h3, h.h4⟩
theorem IsAt.setKM {a : Addr} {b : Rfc.AdrsHead} (h : IsAt a b) (i : Nat) : IsAt (setKeyAndMask a i) b :=
  ⟨h.h0, h.h1, h.h2, h.h3, h.h4⟩

theorem genChainLoop_eq {b : Rfc.AdrsHead} {chain : Nat} (pubSeed : Bytes) (k i : Nat) (x : Bytes) (a : Addr)
    (h : IsAt a b) (h5 : a.a5 = UInt32.ofNat chain) :
    (genChainLoop H p pubSeed k i x a).1 =
      (suiteOf p H).chain pubSeed (b.adrs chain) x i k ∧
    IsAt (genChainLoop H p pubSeed k i x a).2 b := by
  induction k generalizing i x a with
  | zero => exact ⟨rfl, h⟩
  | succ k ih =>
    rw [genChainLoop, chain_succ_left]
    have h1 := thashF_ots (H := H) (p := p) (h.setHash i) h5 (rfl : (setHashAddr a i).a6 = UInt32.ofNat i) x pubSeed
    have ha := thashF_addr (H := H) (p := p) x pubSeed (setHashAddr a i)
    have := ih (i + 1) (thashF H p x pubSeed (setHashAddr a i)).1 (thashF H p x pubSeed (setHashAddr a i)).2
      (by rw [ha]; exact ⟨h.h0, h.h1, h.h2, h.h3, h.h4⟩) (by rw [ha]; exact h5)
    rw [h1] at this
    simpa only [h1] using this

theorem genChain_eq {b : Rfc.AdrsHead} {chain : Nat} (pubSeed : Bytes) (start steps : Nat) (x : Bytes) (a : Addr)
    (h : IsAt a b) (hle : start + steps ≤ p.wots_w) :
    (genChain H p x start steps pubSeed (setChainAddr a chain)).1 =
      (suiteOf p H).chain pubSeed (b.adrs chain) x start steps ∧
    IsAt (genChain H p x start steps pubSeed (setChainAddr a chain)).2 b := by
  have h1 : min (start + steps) p.wots_w - start = steps := by omega
  unfold genChain
  rw [h1]
  exact genChainLoop_eq pubSeed steps start x _ (h.setChain chain) rfl

theorem chainsLoop_eq {b : Rfc.AdrsHead} (pubSeed : Bytes) (cs : List (Bytes × Nat × Nat)) (i : Nat) (a : Addr)
    (h : IsAt a b) (hle : ∀ c ∈ cs, c.2.1 + c.2.2 ≤ p.wots_w) :
    (chainsLoop H p pubSeed i cs a).1 = (List.range cs.length).map (fun j =>
      let c := cs.getD j ([], 0, 0)
      (suiteOf p H).chain pubSeed (b.adrs (i + j)) c.1 c.2.1 c.2.2) ∧
    IsAt (chainsLoop H p pubSeed i cs a).2 b := by
  induction cs generalizing i a with
  | nil => exact ⟨rfl, h⟩
  | cons c cs ih =>
    obtain ⟨x, start, steps⟩ := c
    have h1 := genChain_eq (H := H) (chain := i) pubSeed start steps x a h (hle (x, start, steps) (by simp))
    have h2 := ih (i + 1) _ h1.2 (fun c hc => hle c (by simp [hc]))
    rw [chainsLoop]
    refine ⟨?_, h2.2⟩
    simp only [h2.1, h1.1, List.length_cons, List.range_succ_eq_map, List.map_cons, List.map_map]
    congr 1
    apply List.map_congr_left
    intro j _
    have : i + 1 + j = i + (j + 1) := by omega
    simp [this]

/-! ### key expansion -/

theorem expandSeedLoop_eq {b : Rfc.AdrsHead} (inseed pubSeed : Bytes) (k i : Nat) (a : Addr)
    (h : IsAt a b) (h6 : a.a6 = UInt32.ofNat 0) (h7 : a.a7 = UInt32.ofNat 0) :
    (expandSeedLoop H p inseed pubSeed k i a).1 =
      (List.range k).map (fun j => (suiteOf p H).wotsSkAt inseed pubSeed b (i + j)) ∧
    IsAt (expandSeedLoop H p inseed pubSeed k i a).2 b := by
  induction k generalizing i a with
  | zero => exact ⟨rfl, h⟩
  | succ k ih =>
    rw [expandSeedLoop]
    have h2 := ih (i + 1) (setChainAddr a i) (h.setChain i) h6 h7
    refine ⟨?_, h2.2⟩
    simp only [h2.1, List.range_succ_eq_map, List.map_cons, List.map_map]
    congr 1
    · rw [prfKeygen_eq, (h.setChain i).bytes rfl h6 h7]; rfl
    · apply List.map_congr_left
      intro j _
      have : i + 1 + j = i + (j + 1) := by omega
      simp [this]

theorem expandSeed_eq {b : Rfc.AdrsHead} (inseed pubSeed : Bytes) (a : Addr) (h : IsAt a b) :
    (expandSeed H p inseed pubSeed a).1 =
      (List.range p.wots_len).map (fun j => (suiteOf p H).wotsSkAt inseed pubSeed b j) ∧
    IsAt (expandSeed H p inseed pubSeed a).2 b := by
  have := expandSeedLoop_eq (H := H) (p := p) inseed pubSeed p.wots_len 0 _ ((h.setHash 0).setKM 0) rfl rfl
  unfold expandSeed
  simpa using this

/-! ### WOTS key generation, signing, verification -/

theorem wotsPkgen_eq (g : p.Good) {b : Rfc.AdrsHead} (seed pubSeed : Bytes) (a : Addr)
    (h : IsAt a b) :
    (wotsPkgen H p seed pubSeed a).1 = (suiteOf p H).wotsPkAt seed pubSeed b ∧
    IsAt (wotsPkgen H p seed pubSeed a).2 b := by
  have h1 := expandSeed_eq (H := H) (p := p) seed pubSeed a h
  unfold wotsPkgen
  have h2 := chainsLoop_eq (H := H) (p := p) pubSeed
    ((expandSeed H p seed pubSeed a).1.map fun x => (x, 0, p.wots_w - 1)) 0 _ h1.2
    (by intro c hc; simp only [List.mem_map] at hc; obtain ⟨x, _, rfl⟩ := hc; have := g.w_pos; simp)
  refine ⟨?_, h2.2⟩
  rw [h2.1, h1.1, Rfc.Suite.wotsPkAt, g.len_eq']
  simp only [List.length_map, List.length_range]
  apply List.map_congr_left
  intro j hj
  have hj := List.mem_range.mp hj
  simp [List.getD_eq_getElem?_getD, List.getElem?_range hj, suiteOf]

theorem wotsSign_eq (g : p.Good) {b : Rfc.AdrsHead} (seed pubSeed : Bytes) {msg : Bytes} (hm : msg.length = p.n)
    (a : Addr) (h : IsAt a b) :
    (wotsSign H p msg seed pubSeed a).1 = (suiteOf p H).wotsSigAt seed pubSeed msg b ∧
    IsAt (wotsSign H p msg seed pubSeed a).2 b := by
  have h1 := expandSeed_eq (H := H) (p := p) seed pubSeed a h
  unfold wotsSign
  rw [chainLengths_eq g H hm]
  have hlen := wotsDigits_length (suiteOf p H) msg
  rw [g.len_eq'] at hlen
  have h2 := chainsLoop_eq (H := H) (p := p) pubSeed
    (List.zipWith (fun x l => (x, 0, l)) (expandSeed H p seed pubSeed a).1 ((suiteOf p H).wotsDigits msg)) 0 _ h1.2
    (by
      intro c hc
      rw [List.zipWith_eq_zipWith_take_min] at hc
      simp only [← List.map_uncurry_zip_eq_zipWith, List.mem_map] at hc
      obtain ⟨⟨x, l⟩, hx, rfl⟩ := hc
      have hl := List.mem_of_mem_take (List.of_mem_zip hx).2
      have := wotsDigits_lt (suiteOf p H) g.w_pos msg hl
      simp only [Function.uncurry]
      have hw : (suiteOf p H).w = p.wots_w := rfl
      omega)
  refine ⟨?_, h2.2⟩
  rw [h2.1, h1.1, Rfc.Suite.wotsSigAt, g.len_eq']
  simp only [List.length_zipWith, List.length_map, List.length_range, hlen, min_self]
  apply List.map_congr_left
  intro j hj
  have hj := List.mem_range.mp hj
  have hj' : j < ((suiteOf p H).wotsDigits msg).length := by omega
  simp [List.getD_eq_getElem?_getD, List.getElem?_range hj, List.getElem?_zipWith, List.getElem?_eq_getElem hj']

/-- One row in place: the first `k` parents are written, nothing else changes. -/
theorem ltreeRow_eq (hH : ∀ x, (H x).length = p.n) {b : Rfc.AdrsHead} {height : Nat} (pubSeed : Bytes) (k i : Nat)
    (nodes : List Bytes) (a : Addr) (ha : IsAt a b) (h5 : a.a5 = UInt32.ofNat height)
    (hlen : 2 * (i + k) ≤ nodes.length) (hn : ∀ j < nodes.length, (nodes.getD j []).length = p.n) :
    let f := fun j => (suiteOf p H).randHash pubSeed (b.adrs height j)
    (ltreeRow H p pubSeed k i nodes a).1.length = nodes.length ∧
    (∀ j, (ltreeRow H p pubSeed k i nodes a).1.getD j [] =
      if i ≤ j ∧ j < i + k then f j (nodes.getD (2 * j) []) (nodes.getD (2 * j + 1) []) else nodes.getD j []) ∧
    IsAt (ltreeRow H p pubSeed k i nodes a).2 b ∧
    (∀ j < nodes.length, ((ltreeRow H p pubSeed k i nodes a).1.getD j []).length = p.n) := by
  intro f
  induction k generalizing i nodes a with
  | zero => exact ⟨rfl, fun j => by rw [if_neg (by omega)]; rfl, ha, hn⟩
  | succ k ih =>
    have ha' : IsAt (setTreeIndex a i) b := ⟨ha.h0, ha.h1, ha.h2, ha.h3, ha.h4⟩
    have hval := thashH_ltree (H := H) (p := p) ha' h5 (rfl : (setTreeIndex a i).a6 = UInt32.ofNat i) hH
      (l := nodes.getD (2 * i) []) (r := nodes.getD (2 * i + 1) []) (hn _ (by omega)) pubSeed
    have hadr := thashH_addr (H := H) (p := p) (nodes.getD (2 * i) [] ++ nodes.getD (2 * i + 1) []) pubSeed
      (setTreeIndex a i)
    rw [ltreeRow]
    simp only [hval, hadr]
    set v := (suiteOf p H).randHash pubSeed (b.adrs height i) (nodes.getD (2 * i) [])
      (nodes.getD (2 * i + 1) []) with hv
    have hvl : v.length = p.n := hH _
    have hl : (nodes.set i v).length = nodes.length := by simp
    obtain ⟨r1, r2, r3, r4⟩ := ih (i + 1) (nodes.set i v)
      { setTreeIndex a i with a7 := 2 } ⟨ha.h0, ha.h1, ha.h2, ha.h3, ha.h4⟩ h5 (by rw [hl]; omega)
      (by
        intro j hj
        rw [getD_set]
        split
        · exact hvl
        · rw [hl] at hj; exact hn j hj)
    refine ⟨by rw [r1, hl], ?_, r3, by rw [hl] at r4; exact r4⟩
    intro j
    rw [r2 j, getD_set, getD_set, getD_set]
    by_cases hj : i + 1 ≤ j ∧ j < i + 1 + k
    · rw [if_pos hj, if_neg (by omega), if_neg (by omega), if_pos (by omega)]
    · rw [if_neg hj]
      by_cases hij : i = j
      · subst hij
        rw [if_pos ⟨rfl, by omega⟩, if_pos (by omega)]
      · rw [if_neg (by tauto), if_neg (by omega)]

theorem ltreeLoop_eq (hH : ∀ x, (H x).length = p.n) {b : Rfc.AdrsHead} (pubSeed : Bytes) (fuel l height : Nat)
    (nodes : List Bytes) (a : Addr) (ha : IsAt a b) (h5 : a.a5 = UInt32.ofNat height)
    (hl1 : 1 ≤ l) (hlen : l ≤ nodes.length) (hn : ∀ j < nodes.length, (nodes.getD j []).length = p.n) :
    (ltreeLoop H p pubSeed fuel l height nodes a).1.getD 0 [] =
      (Rfc.Suite.ltreeRows (fun height i => (suiteOf p H).randHash pubSeed (b.adrs height i))
        fuel height (nodes.take l)).getD 0 [] ∧
    ((ltreeLoop H p pubSeed fuel l height nodes a).1.getD 0 []).length = p.n ∧
    IsAt (ltreeLoop H p pubSeed fuel l height nodes a).2 b := by
  induction fuel generalizing l height nodes a with
  | zero =>
    refine ⟨?_, hn 0 (by omega), ha⟩
    show nodes.getD 0 [] = (nodes.take l).getD 0 []
    rw [getD_take _ _ _ (by omega)]
  | succ fuel ih =>
    rw [ltreeLoop, Rfc.Suite.ltreeRows]
    have htl : (nodes.take l).length = l := by simp; omega
    rw [htl]
    by_cases hl : l ≤ 1
    · rw [if_pos hl, if_pos hl]
      refine ⟨?_, hn 0 (by omega), ha⟩
      rw [getD_take _ _ _ (by omega)]
    · rw [if_neg hl, if_neg hl]
      have hsh : l >>> 1 = l / 2 := by simp [Nat.shiftRight_eq_div_pow]
      have hand : l &&& 1 = l % 2 := Nat.and_one_is_mod l
      rw [hsh, hand]
      obtain ⟨r1, r2, r3, r4⟩ := ltreeRow_eq hH pubSeed (l / 2) 0 nodes a ha h5 (by omega) hn
      obtain ⟨s1, s2⟩ := ltreeRow_spec
        (fun j => (suiteOf p H).randHash pubSeed (b.adrs height j)) 0 (nodes.take l)
      rw [htl] at s1
      set R := ltreeRow H p pubSeed (l / 2) 0 nodes a with hR
      by_cases hodd : l % 2 = 1
      · simp only [if_pos hodd]
        have key : (R.1.set (l / 2) (R.1.getD (l - 1) [])).take (l / 2 + 1) =
            Rfc.Suite.ltreeRow (fun j => (suiteOf p H).randHash pubSeed (b.adrs height j)) 0
              (nodes.take l) := by
          apply ext_getD
          · simp only [List.length_take, List.length_set, r1, s1]; omega
          · intro j hj
            have hj : j < l / 2 + 1 := by simp at hj; omega
            rw [getD_take _ _ _ hj, getD_set, s2 j, htl, r1]
            by_cases hjl : l / 2 = j
            · rw [if_pos ⟨hjl, by omega⟩, if_neg (by omega), r2, if_neg (by omega), getD_take _ _ _ (by omega)]
              congr 1; omega
            · rw [if_neg (by tauto), if_pos (by omega), r2 j, if_pos (by omega), getD_take _ _ _ (by omega),
                getD_take _ _ _ (by omega), Nat.zero_add]
        rw [← key]
        apply ih
        · exact ⟨r3.h0, r3.h1, r3.h2, r3.h3, r3.h4⟩
        · rfl
        · simp
        · simp [r1]; omega
        · intro j hj
          rw [List.length_set, r1] at hj
          rw [getD_set]
          split
          · exact r4 _ (by omega)
          · exact r4 _ hj
      · simp only [if_neg hodd]
        have key : R.1.take (l / 2) =
            Rfc.Suite.ltreeRow (fun j => (suiteOf p H).randHash pubSeed (b.adrs height j)) 0
              (nodes.take l) := by
          apply ext_getD
          · simp only [List.length_take, r1, s1]; omega
          · intro j hj
            have hj : j < l / 2 := by simp at hj; omega
            rw [getD_take _ _ _ hj, s2 j, htl, if_pos (by omega), r2 j, if_pos (by omega), getD_take _ _ _ (by omega),
                getD_take _ _ _ (by omega), Nat.zero_add]
        rw [← key]
        apply ih
        · exact ⟨r3.h0, r3.h1, r3.h2, r3.h3, r3.h4⟩
        · rfl
        · show 1 ≤ l / 2; omega
        · show l / 2 ≤ R.1.length; omega
        · intro j hj
          rw [r1] at hj
          exact r4 j hj

theorem lTree_eq (g : p.Good) (hH : ∀ x, (H x).length = p.n) {b : Rfc.AdrsHead} (pubSeed : Bytes)
    {nodes : List Bytes} (a : Addr) (ha : IsAt a b) (hlen : nodes.length = p.wots_len)
    (hn : ∀ x ∈ nodes, x.length = p.n) :
    (lTree H p nodes pubSeed a).1 = (suiteOf p H).ltreeAt pubSeed b nodes ∧
    (lTree H p nodes pubSeed a).1.length = p.n ∧
    IsAt (lTree H p nodes pubSeed a).2 b := by
  have h := ltreeLoop_eq hH pubSeed p.wots_len p.wots_len 0 nodes (setTreeHeight a 0)
    ⟨ha.h0, ha.h1, ha.h2, ha.h3, ha.h4⟩ rfl g.len_pos (by omega)
    (by
      intro j hj
      apply hn
      simp [List.getD_eq_getElem?_getD, List.getElem?_eq_getElem hj])
  refine ⟨?_, h.2.1, h.2.2⟩
  rw [lTree, h.1, Rfc.Suite.ltreeAt, hlen, List.take_of_length_le (by omega)]

end Xmss.AnyAddr
