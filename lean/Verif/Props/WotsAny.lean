import Verif.Props.Wots
/-
C08 for every address: the WOTS functions called directly with an arbitrary 8-word address, as test/wots.c does.
-/
namespace Xmss

variable {H : Bytes → Bytes} {p : Params}

/-- The words up to the chain word agree. -/
private structure Pre6 (a b : Addr) : Prop where
  h0 : a.a0 = b.a0
  h1 : a.a1 = b.a1
  h2 : a.a2 = b.a2
  h3 : a.a3 = b.a3
  h4 : a.a4 = b.a4
  h5 : a.a5 = b.a5

/-- The words up to the OTS word agree. -/
private structure Pre5 (a b : Addr) : Prop where
  h0 : a.a0 = b.a0
  h1 : a.a1 = b.a1
  h2 : a.a2 = b.a2
  h3 : a.a3 = b.a3
  h4 : a.a4 = b.a4

private theorem Pre6.symm {a b : Addr} (h : Pre6 a b) : Pre6 b a := ⟨h.h0.symm, h.h1.symm, h.h2.symm, h.h3.symm, h.h4.symm, h.h5.symm⟩
private theorem Pre6.trans {a b c : Addr} (h : Pre6 a b) (h' : Pre6 b c) : Pre6 a c :=
  ⟨h.h0.trans h'.h0, h.h1.trans h'.h1, h.h2.trans h'.h2, h.h3.trans h'.h3, h.h4.trans h'.h4, h.h5.trans h'.h5⟩
private theorem Pre6.pre5 {a b : Addr} (h : Pre6 a b) : Pre5 a b := ⟨h.h0, h.h1, h.h2, h.h3, h.h4⟩
private theorem Pre5.symm {a b : Addr} (h : Pre5 a b) : Pre5 b a := ⟨h.h0.symm, h.h1.symm, h.h2.symm, h.h3.symm, h.h4.symm⟩
private theorem Pre5.trans {a b c : Addr} (h : Pre5 a b) (h' : Pre5 b c) : Pre5 a c :=
  ⟨h.h0.trans h'.h0, h.h1.trans h'.h1, h.h2.trans h'.h2, h.h3.trans h'.h3, h.h4.trans h'.h4⟩
private theorem Pre5.chain {a b : Addr} (h : Pre5 a b) (i : Nat) : Pre6 (setChainAddr a i) (setChainAddr b i) :=
  ⟨h.h0, h.h1, h.h2, h.h3, h.h4, rfl⟩

private theorem step_congr {a b : Addr} (h : Pre6 a b) (x pubSeed : Bytes) (i : Nat) :
    thashF H p x pubSeed (setHashAddr a i) = thashF H p x pubSeed (setHashAddr b i) := by
  have e : ∀ k, setKeyAndMask (setHashAddr a i) k = setKeyAndMask (setHashAddr b i) k := by
    intro k
    obtain ⟨a0, a1, a2, a3, a4, a5, a6, a7⟩ := a
    obtain ⟨b0, b1, b2, b3, b4, b5, b6, b7⟩ := b
    obtain ⟨h0, h1, h2, h3, h4, h5⟩ := h
    simp only at h0 h1 h2 h3 h4 h5
    subst h0 h1 h2 h3 h4 h5
    rfl
  have e' : ∀ (k : Nat) (c : Addr), setKeyAndMask (setKeyAndMask c 0) k = setKeyAndMask c k := fun _ _ => rfl
  simp only [thashF, thashFInput, e', e]

private theorem step_pre (a : Addr) (x pubSeed : Bytes) (i : Nat) : Pre6 (thashF H p x pubSeed (setHashAddr a i)).2 a :=
  ⟨rfl, rfl, rfl, rfl, rfl, rfl⟩

private theorem loop_congr (pubSeed : Bytes) : ∀ (k i : Nat) (x : Bytes) {a b : Addr}, Pre6 a b →
    (genChainLoop H p pubSeed k i x a).1 = (genChainLoop H p pubSeed k i x b).1 ∧ Pre6 (genChainLoop H p pubSeed k i x a).2 a := by
  intro k
  induction k with
  | zero => intro i x a b h; exact ⟨rfl, ⟨rfl, rfl, rfl, rfl, rfl, rfl⟩⟩
  | succ k ih =>
    intro i x a b h
    simp only [genChainLoop]
    have h1 := step_pre (H := H) (p := p) a x pubSeed i
    refine ⟨?_, (ih (i + 1) _ h1).2.trans h1⟩
    rw [step_congr h]

private theorem loop_add (pubSeed : Bytes) : ∀ (k k' i : Nat) (x : Bytes) (a b : Addr), Pre6 a b →
    (genChainLoop H p pubSeed (k + k') i x a).1 =
      (genChainLoop H p pubSeed k' (i + k) (genChainLoop H p pubSeed k i x a).1 b).1 := by
  intro k
  induction k with
  | zero => intro k' i x a b h; rw [Nat.zero_add, Nat.add_zero]; exact (loop_congr pubSeed _ _ _ h).1
  | succ k ih =>
    intro k' i x a b h
    rw [show k + 1 + k' = (k + k') + 1 by omega]
    simp only [genChainLoop]
    rw [ih k' (i + 1) _ _ b ((step_pre (H := H) (p := p) a x pubSeed i).trans h), show i + 1 + k = i + (k + 1) by omega]

/-- Each chain by itself. -/
private theorem chains_get (pubSeed : Bytes) : ∀ (cs : List (Bytes × Nat × Nat)) (i : Nat) {a b : Addr}, Pre5 a b →
    (chainsLoop H p pubSeed i cs a).1.length = cs.length ∧
    ∀ j x s t, cs[j]? = some (x, s, t) →
      (chainsLoop H p pubSeed i cs a).1[j]? = some (genChain H p x s t pubSeed (setChainAddr b (i + j))).1 := by
  intro cs
  induction cs with
  | nil => intro i a b _; exact ⟨rfl, by simp⟩
  | cons c cs ih =>
    intro i a b h
    obtain ⟨x, s, t⟩ := c
    simp only [chainsLoop, genChain]
    have h1 := (loop_congr (H := H) (p := p) pubSeed (min (s + t) p.wots_w - s) s x (a := setChainAddr a i) (b := setChainAddr b i)
      (h.chain i))
    have h2 : Pre5 (genChainLoop H p pubSeed (min (s + t) p.wots_w - s) s x (setChainAddr a i)).2 b := by
      refine h1.2.pre5.trans ?_
      exact ⟨h.h0, h.h1, h.h2, h.h3, h.h4⟩
    obtain ⟨i1, i2⟩ := ih (i + 1) h2
    refine ⟨by simp only [List.length_cons]; rw [i1], ?_⟩
    intro j x' s' t' hj
    cases j with
    | zero =>
      rw [List.getElem?_cons_zero] at hj
      obtain ⟨rfl, rfl, rfl⟩ : x = x' ∧ s = s' ∧ t = t' := by simpa using hj
      rw [List.getElem?_cons_zero, h1.1, Nat.add_zero]
    | succ j =>
      rw [List.getElem?_cons_succ] at hj
      rw [List.getElem?_cons_succ, i2 j x' s' t' hj, show i + 1 + j = i + (j + 1) by omega]
      rfl

private theorem chains_pre (pubSeed : Bytes) : ∀ (cs : List (Bytes × Nat × Nat)) (i : Nat) (a : Addr),
    Pre5 (chainsLoop H p pubSeed i cs a).2 a := by
  intro cs
  induction cs with
  | nil => intro i a; exact ⟨rfl, rfl, rfl, rfl, rfl⟩
  | cons c cs ih =>
    intro i a
    obtain ⟨x, s, t⟩ := c
    simp only [chainsLoop, genChain]
    have h1 := (loop_congr (H := H) (p := p) pubSeed (min (s + t) p.wots_w - s) s x (a := setChainAddr a i) (b := setChainAddr a i)
      ⟨rfl, rfl, rfl, rfl, rfl, rfl⟩).2.pre5
    exact (ih (i + 1) _).trans (h1.trans ⟨rfl, rfl, rfl, rfl, rfl⟩)

private theorem expand_congr (seed pubSeed : Bytes) : ∀ (k i : Nat) {a b : Addr}, Pre5 a b → a.a6 = b.a6 → a.a7 = b.a7 →
    (expandSeedLoop H p seed pubSeed k i a).1 = (expandSeedLoop H p seed pubSeed k i b).1 ∧
    (expandSeedLoop H p seed pubSeed k i a).1.length = k ∧ Pre5 (expandSeedLoop H p seed pubSeed k i a).2 a := by
  intro k
  induction k with
  | zero => intro i a b h _ _; exact ⟨rfl, rfl, ⟨rfl, rfl, rfl, rfl, rfl⟩⟩
  | succ k ih =>
    intro i a b h h6 h7
    have e : setChainAddr a i = setChainAddr b i := by
      obtain ⟨a0, a1, a2, a3, a4, a5, a6, a7⟩ := a
      obtain ⟨b0, b1, b2, b3, b4, b5, b6, b7⟩ := b
      obtain ⟨h0, h1, h2, h3, h4⟩ := h
      simp only at h0 h1 h2 h3 h4 h6 h7
      subst h0 h1 h2 h3 h4 h6 h7
      rfl
    simp only [expandSeedLoop, e]
    obtain ⟨i1, i2, i3⟩ := ih (i + 1) (a := setChainAddr b i) (b := setChainAddr b i) ⟨rfl, rfl, rfl, rfl, rfl⟩ rfl rfl
    refine ⟨trivial, by rw [List.length_cons, i2], i3.trans ?_⟩
    exact ⟨h.h0.symm, h.h1.symm, h.h2.symm, h.h3.symm, h.h4.symm⟩

private theorem expandSeed_congr (seed pubSeed : Bytes) {a b : Addr} (h : Pre5 a b) :
    (expandSeed H p seed pubSeed a).1 = (expandSeed H p seed pubSeed b).1 ∧
    (expandSeed H p seed pubSeed a).1.length = p.wots_len ∧ Pre5 (expandSeed H p seed pubSeed a).2 a := by
  simp only [expandSeed]
  obtain ⟨h1, h2, h3⟩ := expand_congr (H := H) (p := p) seed pubSeed p.wots_len 0
    (a := setKeyAndMask (setHashAddr a 0) 0) (b := setKeyAndMask (setHashAddr b 0) 0) ⟨h.h0, h.h1, h.h2, h.h3, h.h4⟩ rfl rfl
  exact ⟨h1, h2, h3.trans ⟨rfl, rfl, rfl, rfl, rfl⟩⟩

/-- **C08, every address.**  Whatever the 8-word address (any type word, any layer and tree): the public key recovered from
a WOTS signature of `msg` is the generated public key.  The three calls may start from addresses that differ in the chain,
hash and key-and-mask words, as they do in the code, where each call changes these words. -/
theorem C08_any_address (H : Bytes → Bytes) (p : Params) (g : p.Good) (msg seed pubSeed : Bytes) (hm : msg.length = p.n)
    (a a' a'' : Addr)
    (h1 : a'.a0 = a.a0 ∧ a'.a1 = a.a1 ∧ a'.a2 = a.a2 ∧ a'.a3 = a.a3 ∧ a'.a4 = a.a4)
    (h2 : a''.a0 = a.a0 ∧ a''.a1 = a.a1 ∧ a''.a2 = a.a2 ∧ a''.a3 = a.a3 ∧ a''.a4 = a.a4) :
    (wotsPkFromSig H p (wotsSign H p msg seed pubSeed a).1 msg pubSeed a').1 = (wotsPkgen H p seed pubSeed a'').1 := by
  have p1 : Pre5 a' a := ⟨h1.1, h1.2.1, h1.2.2.1, h1.2.2.2.1, h1.2.2.2.2⟩
  have p2 : Pre5 a'' a := ⟨h2.1, h2.2.1, h2.2.2.1, h2.2.2.2.1, h2.2.2.2.2⟩
  obtain ⟨e1, e2, e3⟩ := expandSeed_congr (H := H) (p := p) seed pubSeed p2
  obtain ⟨-, f2, f3⟩ := expandSeed_congr (H := H) (p := p) seed pubSeed (a := a) (b := a) ⟨rfl, rfl, rfl, rfl, rfl⟩
  have hL : (chainLengths p msg).length = p.wots_len := by
    rw [chainLengths_eq g H hm, wotsDigits_length, g.len_eq']
  have hlt : ∀ (j l : Nat), (chainLengths p msg)[j]? = some l → l < p.wots_w := by
    intro j l hj
    rw [chainLengths_eq g H hm] at hj
    exact wotsDigits_lt (suiteOf p H) g.w_pos _ (List.mem_of_getElem? hj)
  simp only [wotsPkFromSig, wotsSign, wotsPkgen]
  rw [e1]
  obtain ⟨E, hE⟩ : ∃ E, (expandSeed H p seed pubSeed a).1 = E := ⟨_, rfl⟩
  rw [hE] at f2 ⊢
  obtain ⟨c1, c2⟩ := chains_get (H := H) (p := p) pubSeed (E.map fun x => (x, 0, p.wots_w - 1)) 0
    (a := (expandSeed H p seed pubSeed a'').2) (b := a) (e3.trans p2)
  obtain ⟨d1, d2⟩ := chains_get (H := H) (p := p) pubSeed (List.zipWith (fun x l => (x, 0, l)) E (chainLengths p msg)) 0
    (a := (expandSeed H p seed pubSeed a).2) (b := a) f3
  obtain ⟨S, hS⟩ : ∃ S, (chainsLoop H p pubSeed 0 (List.zipWith (fun x l => (x, 0, l)) E (chainLengths p msg))
    (expandSeed H p seed pubSeed a).2).1 = S := ⟨_, rfl⟩
  rw [hS] at d1 d2 ⊢
  obtain ⟨v1, v2⟩ := chains_get (H := H) (p := p) pubSeed (List.zipWith (fun x l => (x, l, p.wots_w - 1 - l)) S (chainLengths p msg)) 0
    (a := a') (b := a) p1
  apply List.ext_getElem?
  intro j
  by_cases hj : j < p.wots_len
  · obtain ⟨x, hx⟩ : ∃ x, E[j]? = some x := ⟨E[j], List.getElem?_eq_getElem (by omega)⟩
    obtain ⟨l, hl⟩ : ∃ l, (chainLengths p msg)[j]? = some l := ⟨(chainLengths p msg)[j], List.getElem?_eq_getElem (by omega)⟩
    have hlw := hlt j l hl
    have hs := d2 j x 0 l (by rw [List.getElem?_zipWith, hx, hl])
    rw [c2 j x 0 (p.wots_w - 1) (by rw [List.getElem?_map, hx]; rfl),
      v2 j _ l (p.wots_w - 1 - l) (by rw [List.getElem?_zipWith, hs, hl])]
    congr 1
    simp only [genChain, Nat.zero_add]
    have := loop_add (H := H) (p := p) pubSeed l (p.wots_w - 1 - l) 0 x (setChainAddr a j) (setChainAddr a j) ⟨rfl, rfl, rfl, rfl, rfl, rfl⟩
    rw [Nat.zero_add] at this
    rw [show min (l + (p.wots_w - 1 - l)) p.wots_w - l = p.wots_w - 1 - l by omega,
      show min l p.wots_w - 0 = l by omega, show min (p.wots_w - 1) p.wots_w - 0 = l + (p.wots_w - 1 - l) by omega]
    exact this.symm
  · rw [List.getElem?_eq_none (by rw [v1, List.length_zipWith, d1, List.length_zipWith, f2, hL]; omega),
      List.getElem?_eq_none (by rw [c1, List.length_map, f2]; omega)]

/-- The WOTS functions change no address word before the chain word. -/
theorem wots_addr_kept (H : Bytes → Bytes) (p : Params) (msg seed pubSeed : Bytes) (a : Addr) :
    (let b := (wotsPkgen H p seed pubSeed a).2; b.a0 = a.a0 ∧ b.a1 = a.a1 ∧ b.a2 = a.a2 ∧ b.a3 = a.a3 ∧ b.a4 = a.a4) ∧
    (let b := (wotsSign H p msg seed pubSeed a).2; b.a0 = a.a0 ∧ b.a1 = a.a1 ∧ b.a2 = a.a2 ∧ b.a3 = a.a3 ∧ b.a4 = a.a4) := by
  obtain ⟨-, -, e⟩ := expandSeed_congr (H := H) (p := p) seed pubSeed (a := a) (b := a) ⟨rfl, rfl, rfl, rfl, rfl⟩
  constructor
  · simp only [wotsPkgen]
    have h := (chains_pre (H := H) (p := p) pubSeed (((expandSeed H p seed pubSeed a).1).map fun x => (x, 0, p.wots_w - 1)) 0 _).trans e
    exact ⟨h.h0, h.h1, h.h2, h.h3, h.h4⟩
  · simp only [wotsSign]
    have h := (chains_pre (H := H) (p := p) pubSeed (List.zipWith (fun x l => (x, 0, l)) (expandSeed H p seed pubSeed a).1
      (chainLengths p msg)) 0 _).trans e
    exact ⟨h.h0, h.h1, h.h2, h.h3, h.h4⟩

/-- The hypotheses are met by an address that no library call uses: all words equal to 7. -/
example (H : Bytes → Bytes) (p : Params) (g : p.Good) (msg seed pubSeed : Bytes) (hm : msg.length = p.n) :
    (wotsPkFromSig H p (wotsSign H p msg seed pubSeed ⟨7, 7, 7, 7, 7, 7, 7, 7⟩).1 msg pubSeed ⟨7, 7, 7, 7, 7, 1, 2, 3⟩).1 =
      (wotsPkgen H p seed pubSeed ⟨7, 7, 7, 7, 7, 7, 7, 7⟩).1 :=
  C08_any_address H p g msg seed pubSeed hm _ _ _ ⟨rfl, rfl, rfl, rfl, rfl⟩ ⟨rfl, rfl, rfl, rfl, rfl⟩

end Xmss
