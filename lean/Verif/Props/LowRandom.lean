import Verif.Model.LowRandom
import Verif.Props.LowUi
import Verif.Props.KeygenOs
/-
C87: the random device and key generation on explicit memory.
-/
namespace Xmss.Low

variable {P : Prims} {f : Family} {oid : Nat} {p : Params} {H : Bytes → Bytes}

/-- The loop on memory and the loop of the first model, on any byte string that is long enough, take the same course. -/
theorem randomLoopL_sim : ∀ (rs : List ReadResult) (m : Mem) (x : Ptr) (xlen : Nat) (mem : Bytes) (off : Nat)
    (tr0 : List (Nat × Nat × Bytes)), Valid m x xlen → off + xlen ≤ mem.length →
    (randomLoopL rs m x xlen = some .waiting ∧ randomLoop rs mem off xlen tr0 = some .waiting) ∨
    ∃ tr rest m' mem', (stored tr).length = xlen ∧ store m x (stored tr) = some m' ∧
      randomLoopL rs m x xlen = some (.returned m' rest) ∧
      randomLoop rs mem off xlen tr0 = some (.returned mem' (tr0 ++ tr) rest) := by
  have zero : ∀ (rs : List ReadResult) (m : Mem) (x : Ptr) (mem : Bytes) (off : Nat) tr0, Valid m x 0 →
      ∃ tr rest m' mem', (stored tr).length = 0 ∧ store m x (stored tr) = some m' ∧
      randomLoopL rs m x 0 = some (.returned m' rest) ∧ randomLoop rs mem off 0 tr0 = some (.returned mem' (tr0 ++ tr) rest) := by
    intro rs m x mem off tr0 hv
    exact ⟨[], rs, m, mem, rfl, hv.store_nil, by rw [randomLoopL], by cases rs with
      | nil => simp [randomLoop]
      | cons r rs => cases r <;> simp [randomLoop]⟩
  intro rs
  induction rs with
  | nil =>
    intro m x xlen mem off tr0 hv hm
    cases xlen with
    | zero => exact Or.inr (zero _ _ _ _ _ _ hv)
    | succ n => exact Or.inl ⟨rfl, rfl⟩
  | cons r rs ih =>
    intro m x xlen mem off tr0 hv hm
    cases xlen with
    | zero => exact Or.inr (zero _ _ _ _ _ _ hv)
    | succ n =>
      cases r with
      | none => exact ih m x (n + 1) mem off tr0 hv hm
      | some d =>
        rw [randomLoopL, randomLoop]
        by_cases hd : (d.take (readRequest (n + 1))).length < 1
        · simp only [if_pos hd]
          exact ih m x (n + 1) mem off tr0 hv hm
        · simp only [if_neg hd]
          have hq := (readRequest_le (n + 1)).1
          have hl : (d.take (readRequest (n + 1))).length ≤ n + 1 := by rw [List.length_take]; omega
          generalize d.take (readRequest (n + 1)) = got at *
          obtain ⟨m1, h1⟩ := hv.store hl
          rw [h1, wr_some (by omega)]
          dsimp only
          have hlen : (mem.take off ++ got ++ mem.drop (off + got.length)).length = mem.length := by
            simp only [List.length_append, List.length_take, List.length_drop]; omega
          rcases ih m1 (x + got.length) (n + 1 - got.length) _ (off + got.length) (tr0 ++ [(off, readRequest (n + 1), got)])
            ((hv.after h1).sub _ _ (by omega)) (by rw [hlen]; omega) with ⟨a, b⟩ | ⟨tr, rest, m', mem', a, b, c, e⟩
          · exact Or.inl ⟨a, b⟩
          · refine Or.inr ⟨(off, readRequest (n + 1), got) :: tr, rest, m', mem', ?_, ?_, c, ?_⟩
            · simp only [stored, List.map_cons, List.flatten_cons, List.length_append] at a ⊢; omega
            · rw [store_append' h1] at b
              exact b
            · rw [e, List.append_assoc]; rfl

/-- `randombytes` on memory next to `randombytes` of the first model. -/
theorem randombytesL_sim (dev : Device) {m : Mem} {x : Ptr} {xlen : Nat} (hv : Valid m x xlen) {mem : Bytes} {off : Nat}
    (hm : off + xlen ≤ mem.length) :
    (randombytesL dev m x xlen = some .waiting ∧ randombytes dev.isOpen dev.opens dev.reads mem off xlen = some .waiting) ∨
    ∃ tr rest m' mem', (stored tr).length = xlen ∧ store m x (stored tr) = some m' ∧
      randombytesL dev m x xlen = some (.returned m' rest) ∧
      randombytes dev.isOpen dev.opens dev.reads mem off xlen = some (.returned mem' tr rest) := by
  unfold randombytesL randombytes
  split
  · have := randomLoopL_sim dev.reads m x xlen mem off [] hv hm
    simpa only [List.nil_append] using this
  · exact Or.inl ⟨rfl, rfl⟩

/-- The number of bytes the device delivers in all. -/
def Device.total (dev : Device) : Nat := ((dev.reads.map fun r => r.getD []).flatten).length

/-- The device can be opened and no read delivers more than 2^20 bytes at once. -/
def Device.Sane (dev : Device) : Prop := (dev.isOpen = true ∨ true ∈ dev.opens) ∧ ∀ d ∈ dev.reads, (d.getD []).length ≤ 1048576

/-- **C87 (random bytes on memory).**  For every pointer with room for `xlen` bytes, initialised or not, and every course of the
device, `randombytes` is defined.  It waits, or it returns with exactly the first `xlen` bytes taken from the device in order
at the pointer, nothing else of memory changed and the rest of the device unused.  It waits if fewer than `xlen` bytes come or the
device cannot be opened, and returns if enough bytes come. -/
theorem C87_randombytes (dev : Device) (m : Mem) (x : Ptr) (xlen : Nat) (hv : Room m x xlen) :
    ∃ o, randombytesL dev m x xlen = some o ∧
      (∀ m' rest, o = .returned m' rest → ∃ used tr, dev.reads = used ++ rest ∧ From used tr ∧ Contiguous x.off xlen tr ∧
        Holds m' x (stored tr) ∧ (stored tr).length = xlen ∧ OnlyIn m m' [(x, xlen)]) ∧
      (dev.total < xlen ∨ (dev.isOpen = false ∧ true ∉ dev.opens) → o = .waiting) ∧
      (xlen ≤ dev.total → dev.Sane → o ≠ .waiting) := by
  have hm : x.off + xlen ≤ (List.replicate (x.off + xlen) (0 : UInt8)).length := by simp
  obtain ⟨o1, ho1, sp⟩ := C40_fills_buffer dev.isOpen dev.opens dev.reads _ x.off xlen hm
  rcases randombytesL_sim dev (show Valid m x xlen from hv) hm with ⟨a, b⟩ | ⟨tr, rest, m', mem', a, b, c, e⟩
  · refine ⟨_, a, fun m' rest h => (by cases h), fun _ => rfl, fun h1 h2 => ?_⟩
    obtain ⟨_, _, _, h⟩ := C40_returns dev.isOpen dev.opens dev.reads _ x.off xlen hm h2.1 h2.2 h1
    rw [b] at h
    cases h
  · refine ⟨_, c, fun m2 rest2 h => ?_, fun h => ?_, fun _ _ h => by cases h⟩
    · cases h
      rw [e] at ho1
      obtain ⟨used, h1, h2, h3, h4, _⟩ := sp _ _ _ (Option.some.inj ho1).symm
      exact ⟨used, tr, h1, h2, h3, store_holds b, a, by have := store_onlyIn b; rwa [a] at this⟩
    · have := C40_does_not_return_early dev.isOpen dev.opens dev.reads _ x.off xlen hm h
      rw [e] at this
      cases this

/-! ### Key generation, simple implementation -/

/-- What the first `3n` bytes of the device are does not depend on memory: the run of the first model on a blank buffer. -/
def draw (dev : Device) (n : Nat) : Option RandomOut :=
  randombytes dev.isOpen dev.opens dev.reads (List.replicate n 0) 0 n

/-- The core of key generation with the device is key generation with the bytes drawn. -/
theorem coreKeypairOs_eq (h3 : 3 * p.n < 2 ^ 32) (hn : 0 < p.n) (dev : Device) (m0 : Mem) (pk sk : Ptr) :
    (draw dev (3 * p.n) = some .waiting → coreKeypairOs P p dev m0 pk sk = some .waiting) ∧
    (∀ mem tr rest, draw dev (3 * p.n) = some (.returned mem tr rest) →
      coreKeypairOs P p dev m0 pk sk = (coreKeypair P p m0 pk sk (stored tr)).map fun m => .done 0 m rest) := by
  have hv : Valid (m0 ++ [List.replicate (3 * p.n) none]) ⟨m0.length, 0⟩ (3 * p.n) := valid_right (by simp)
  have hs := randombytesL_sim dev hv (mem := List.replicate (3 * p.n) 0) (off := 0) (by simp)
  rw [coreKeypairOs, w32_lt h3, alloc_pos (by omega)]
  simp only [Option.bind_eq_bind, Option.bind_some]
  constructor
  · intro hd
    rcases hs with ⟨a, _⟩ | ⟨_, _, _, _, _, _, _, e⟩
    · rw [a]; rfl
    · rw [draw] at hd; rw [hd] at e; cases e
  · intro mem tr rest hd
    rcases hs with ⟨_, b⟩ | ⟨tr', rest', m', mem', a, b, c, e⟩
    · rw [draw] at hd; rw [hd] at b; cases b
    · rw [draw] at hd; rw [hd] at e
      cases e
      rw [c, coreKeypair, w32_lt h3, alloc_pos (by omega)]
      simp only [Option.bind_eq_bind, Option.bind_some]
      rw [b, Option.bind_some]
      cases coreSeedKeypair P p m' pk sk ⟨m0.length, 0⟩ <;> rfl

/-- Key generation with the device is key generation with the bytes drawn, for all arguments (also where it is undefined). -/
theorem apiKeypairOsL_eq (hp : f.parse oid = some p) (dev : Device) (m : Mem) (pk sk : Ptr) :
    (∀ mem tr rest, draw dev (3 * p.n) = some (.returned mem tr rest) →
      apiKeypairOsL P f dev m pk sk oid =
        (apiKeypair P f.parse m pk sk oid (fun _ => stored tr)).map fun r => .done r.1 r.2 rest) ∧
    (draw dev (3 * p.n) = some .waiting → ∀ rnd r, apiKeypair P f.parse m pk sk oid rnd = some r →
      apiKeypairOsL P f dev m pk sk oid = some .waiting) := by
  obtain ⟨g, hskb, ho, _⟩ := Family.facts (P := P) hp
  have hn := g.n_pos
  have hn16 := (fits_of_good g).n_lt
  have h1632 : (2 : Nat) ^ 16 * 4 < 2 ^ 32 := by norm_num
  have h3 : 3 * p.n < 2 ^ 32 := by omega
  rw [apiKeypairOsL, apiKeypairWith, hp]
  simp only [apiKeypair, hp, Option.bind_eq_bind]
  constructor
  · intro mem tr rest hd
    cases oidWriteLoop pk sk oid oidLen 0 m with
    | none => rfl
    | some m1 =>
      rw [Option.bind_some, Option.bind_some, (coreKeypairOs_eq (P := P) h3 hn dev m1 (pk + oidLen) (sk + oidLen)).2 _ _ _ hd]
      cases coreKeypair P p m1 (pk + oidLen) (sk + oidLen) (stored tr) <;> rfl
  · intro hd rnd r hr
    obtain ⟨m1, e1, _⟩ := Option.bind_eq_some_iff.mp hr
    rw [e1, Option.bind_some, (coreKeypairOs_eq (P := P) h3 hn dev m1 (pk + oidLen) (sk + oidLen)).1 hd]

/-- What `draw` gives: it waits if fewer than `n` bytes come, and returns if enough come. -/
theorem draw_cases (dev : Device) (n : Nat) :
    (dev.total < n ∨ (dev.isOpen = false ∧ true ∉ dev.opens) → draw dev n = some .waiting) ∧
    (n ≤ dev.total → dev.Sane → draw dev n ≠ some .waiting) ∧
    (draw dev n = some .waiting ∨ ∃ mem used tr rest, draw dev n = some (.returned mem tr rest) ∧ dev.reads = used ++ rest ∧
      From used tr ∧ Contiguous 0 n tr ∧ (stored tr).length = n) := by
  have hm : 0 + n ≤ (List.replicate n (0 : UInt8)).length := by simp
  refine ⟨fun h => C40_does_not_return_early _ _ _ _ _ _ hm h, fun h1 h2 hw => ?_, ?_⟩
  · obtain ⟨_, _, _, h⟩ := C40_returns dev.isOpen dev.opens dev.reads _ 0 n hm h2.1 h2.2 h1
    rw [draw, h] at hw
    cases hw
  · obtain ⟨o, ho, sp⟩ := C40_fills_buffer dev.isOpen dev.opens dev.reads _ 0 n hm
    cases o with
    | waiting => exact Or.inl ho
    | returned mem tr rest =>
      obtain ⟨used, h1, h2, h3, h4, _⟩ := sp _ _ _ rfl
      exact Or.inr ⟨mem, used, tr, rest, ho, h1, h2, h3, h4⟩

/-- **C87 (key generation with the device, simple build).**  Two separate buffers of the announced sizes, initialised or not.
Whatever the device does, key generation is defined.  When it returns, it returns 0, SK_SEED, SK_PRF and PUB_SEED are in this
order the first `3n` bytes taken from the device, the buffers hold the key pair RFC 8391 makes of them, and nothing else of the
caller's memory has changed; it waits if fewer than `3n` bytes come, and returns if enough come. -/
theorem C87_keypair (hp : f.parse oid = some p) (hH : Xmss.coreHash P p.func p.n = some H) (dev : Device) (m : Mem) (pk sk : Ptr)
    (hpk : Room m pk (4 + p.pk_bytes)) (hsk : Room m sk (4 + p.sk_bytes))
    (hd : Apart pk (4 + p.pk_bytes) sk (4 + p.sk_bytes)) :
    ∃ o, apiKeypairOsL P f dev m pk sk oid = some o ∧
      (∀ ret m' rest, o = .done ret m' rest → ret = 0 ∧ ∃ (k : Key) (used : List ReadResult) (tr : List (Nat × Nat × Bytes)),
        dev.reads = used ++ rest ∧ From used tr ∧ Contiguous 0 (3 * p.n) tr ∧ k.skSeed ++ k.skPrf ++ k.pubSeed = stored tr ∧
        k.Valid p ∧ k.Honest (suiteOf p H) ∧ Holds m' pk (k.pk oid) ∧ Holds m' sk (k.sk p oid 0) ∧
        OnlyIn m m' [(pk, 4 + p.pk_bytes), (sk, 4 + p.sk_bytes)]) ∧
      (dev.total < 3 * p.n ∨ (dev.isOpen = false ∧ true ∉ dev.opens) → o = .waiting) ∧
      (3 * p.n ≤ dev.total → dev.Sane → o ≠ .waiting) := by
  have key : ∀ S : Bytes, S.length = 3 * p.n → ∃ (k : Key) (m' : Mem), k.skSeed ++ k.skPrf ++ k.pubSeed = S ∧ k.Honest (suiteOf p H) ∧
      k.Valid p ∧ apiKeypair P f.parse m pk sk oid (fun _ => S) = some (0, m') ∧ Holds m' pk (k.pk oid) ∧ Holds m' sk (k.sk p oid 0) ∧
      OnlyIn m m' [(pk, 4 + p.pk_bytes), (sk, 4 + p.sk_bytes)] := by
    intro S hS
    have h3 := split3 S p.n p.n
    obtain ⟨k, m', k1, k2, k3, k4, k5, k6, k7, k8, k9⟩ := C83_keypair (P := P) hp hH m pk sk hpk hsk hd (fun _ => S) _ _ _ h3
      (by simp; omega) (by simp; omega) (by simp; omega)
    exact ⟨k, m', by rw [k1, k2, k3]; exact h3.symm, k4, k5, k6, k7, k8, k9⟩
  obtain ⟨w1, w2, w3⟩ := draw_cases dev (3 * p.n)
  rcases w3 with hw | ⟨mem, used, tr, rest, hd1, hu, hf, hc, hl⟩
  · obtain ⟨_, m', _, _, _, e, _⟩ := key (List.replicate (3 * p.n) 0) (by simp)
    exact ⟨_, (apiKeypairOsL_eq (P := P) hp dev m pk sk).2 hw _ _ e, fun _ _ _ h => (by cases h), fun _ => rfl,
      fun h1 h2 => absurd hw (w2 h1 h2)⟩
  · obtain ⟨k, m', a, b, c, e, d1, d2, d3⟩ := key (stored tr) hl
    refine ⟨_, by rw [(apiKeypairOsL_eq (P := P) hp dev m pk sk).1 _ _ _ hd1, e]; rfl, ?_, ?_, fun _ _ h => by cases h⟩
    · intro ret m2 rest2 h
      cases h
      exact ⟨rfl, k, used, tr, hu, hf, hc, a, c, b, d1, d2, d3⟩
    · intro h
      rw [w1 h] at hd1
      cases hd1

/-! ### Key generation, fast implementation -/

/-- The fast key generation is: everything before the first random byte, two stores, the rest. -/
theorem fastKeypairL_split (P : Prims) (f : Family) (p : Params) (m : Mem) (pk sk : Ptr) (rnd : Bytes) :
    fastKeypairL P f p m pk sk rnd = (fastKeypairStartL f p m sk).bind fun s =>
      (store s.2 (sk + p.index_bytes) (rnd.take (2 * p.n))).bind fun m =>
        (store m (sk + p.index_bytes + w32 (3 * p.n)) (rnd.drop (2 * p.n))).bind fun m => fastKeypairEndL P f p m pk sk s.1 := by
  cases f with
  | xmss =>
    show fastXmssKeypairL P p m pk sk rnd = _
    rw [fastXmssKeypairL, fastKeypairStartL]
    by_cases ha : ¬ arraysOk p
    · rw [if_pos ha, if_pos ha]; rfl
    · rw [if_neg ha, if_neg ha]
      simp only [Option.bind_eq_bind, Option.bind_assoc, Option.bind_some, fastKeypairEndL, List.getElem?_cons_zero]
  | xmssmt =>
    show fastXmssmtKeypairL P p m pk sk rnd = _
    rw [fastXmssmtKeypairL, fastKeypairStartL]
    by_cases ha : ¬ arraysOk p
    · rw [if_pos ha, if_pos ha]; rfl
    · rw [if_neg ha, if_neg ha]
      simp only [Option.bind_eq_bind, Option.bind_assoc, Option.bind_some, fastKeypairEndL]

/-- The device after a first call of `randombytes` (randombytes.c:12: `fd` stays open). -/
def Device.after (rest : List ReadResult) : Device := { isOpen := true, opens := [], reads := rest }

/-- Where key generation is defined for some random bytes, its course with the device is given by the bytes drawn. -/
theorem fastKeypairOs_eq (h3 : 3 * p.n < 2 ^ 32) (dev : Device) (m : Mem) (pk sk : Ptr) (S : Bytes)
    (hS : S.length = 3 * p.n) (mf : Mem) (hdef : fastKeypairL P f p m pk sk S = some mf) :
    (draw dev (2 * p.n) = some .waiting → fastKeypairOs P f p dev m pk sk = some .waiting) ∧
    ∀ mem1 tr1 r1, draw dev (2 * p.n) = some (.returned mem1 tr1 r1) →
      (draw (.after r1) p.n = some .waiting → fastKeypairOs P f p dev m pk sk = some .waiting) ∧
      ∀ mem2 tr2 rest, draw (.after r1) p.n = some (.returned mem2 tr2 rest) → (stored tr1).length = 2 * p.n →
        fastKeypairOs P f p dev m pk sk = (fastKeypairL P f p m pk sk (stored tr1 ++ stored tr2)).map fun m => .done 0 m rest := by
  rw [fastKeypairL_split] at hdef
  obtain ⟨s, hs, hdef⟩ := Option.bind_eq_some_iff.mp hdef
  obtain ⟨m1, h1, hdef⟩ := Option.bind_eq_some_iff.mp hdef
  obtain ⟨m2, h2, hdef⟩ := Option.bind_eq_some_iff.mp hdef
  have v1 := valid_of_store h1
  have v2 := valid_of_store h2
  rw [List.length_take, Nat.min_eq_left (by omega)] at v1
  rw [List.length_drop, show S.length - 2 * p.n = p.n by omega] at v2
  have hsim := randombytesL_sim dev v1 (mem := List.replicate (2 * p.n) 0) (off := 0) (by simp)
  rw [fastKeypairOs, hs, w32_lt (x := 2 * p.n) (by omega)]
  simp only [Option.bind_eq_bind, Option.bind_some]
  constructor
  · intro hd
    rw [draw] at hd
    rcases hsim with ⟨a, _⟩ | ⟨_, _, _, _, _, _, _, e⟩
    · rw [a]; rfl
    · rw [hd] at e; cases e
  intro mem1 tr1 r1 hd
  rw [draw] at hd
  rcases hsim with ⟨_, b⟩ | ⟨tr', rest', m1', _, a, b, c, e⟩
  · rw [hd] at b; cases b
  rw [hd] at e
  cases e
  have v2' : Valid m1' (sk + p.index_bytes + w32 (3 * p.n)) p.n := by
    have o1 := store_onlyIn h1
    have o2 := store_onlyIn b
    exact keepValid o2 (keepValid o1.symm (keepValid (store_onlyIn h2).symm (valid_of_store h2 |> fun h => by
      have := keepValid (store_onlyIn h2) h
      rw [List.length_drop, show S.length - 2 * p.n = p.n by omega] at this
      exact this)))
  have hsim2 := randombytesL_sim (.after r1) v2' (mem := List.replicate p.n 0) (off := 0) (by simp)
  rw [c, Option.bind_some]
  dsimp only
  constructor
  · intro hd2
    rw [draw] at hd2
    rcases hsim2 with ⟨a, _⟩ | ⟨_, _, _, _, _, _, _, e2⟩
    · rw [Device.after] at a; rw [a]; rfl
    · rw [hd2] at e2; cases e2
  · intro mem2 tr2 rest hd2 hl
    rw [draw] at hd2
    rcases hsim2 with ⟨_, b2⟩ | ⟨tr2', rest2', m2', _, a2, b2, c2, e2⟩
    · rw [hd2] at b2; cases b2
    rw [hd2] at e2
    cases e2
    rw [Device.after] at c2
    rw [c2, Option.bind_some, fastKeypairL_split, hs, Option.bind_some, List.take_left' hl, b, Option.bind_some, List.drop_left' hl, b2,
      Option.bind_some]
    dsimp only
    cases fastKeypairEndL P f p m2' pk sk s.1 <;> rfl

/-- Fast key generation with the device, for all arguments for which key generation with given random bytes is defined. -/
theorem apiKeypairFastOsL_eq (hp : f.parseFast oid = some p) (dev : Device) (m : Mem) (pk sk : Ptr) (S : Bytes)
    (hS : S.length = 3 * p.n) (r : Int × Mem) (hdef : apiKeypairFastL P f m pk sk oid (fun _ => S) = some r) :
    (draw dev (2 * p.n) = some .waiting → apiKeypairFastOsL P f dev m pk sk oid = some .waiting) ∧
    ∀ mem1 tr1 r1, draw dev (2 * p.n) = some (.returned mem1 tr1 r1) →
      (draw (.after r1) p.n = some .waiting → apiKeypairFastOsL P f dev m pk sk oid = some .waiting) ∧
      ∀ mem2 tr2 rest, draw (.after r1) p.n = some (.returned mem2 tr2 rest) → (stored tr1).length = 2 * p.n →
        apiKeypairFastOsL P f dev m pk sk oid =
          (apiKeypairFastL P f m pk sk oid (fun _ => stored tr1 ++ stored tr2)).map fun r => .done r.1 r.2 rest := by
  obtain ⟨g, _⟩ := parseFast_good hp
  have hn16 := (fits_of_good g).n_lt
  have h1632 : (2 : Nat) ^ 16 * 4 < 2 ^ 32 := by norm_num
  have h3 : 3 * p.n < 2 ^ 32 := by omega
  rw [apiKeypairFastL, hp] at hdef
  simp only [Option.bind_eq_bind] at hdef
  obtain ⟨m1, e1, hdef⟩ := Option.bind_eq_some_iff.mp hdef
  obtain ⟨mf, e2, _⟩ := Option.bind_eq_some_iff.mp hdef
  have main := fastKeypairOs_eq (P := P) h3 dev m1 (pk + oidLen) (sk + oidLen) S hS mf e2
  rw [apiKeypairFastOsL, apiKeypairWith, hp]
  simp only [apiKeypairFastL, hp, Option.bind_eq_bind, e1, Option.bind_some]
  refine ⟨main.1, fun mem1 tr1 r1 hd => ⟨(main.2 _ _ _ hd).1, fun mem2 tr2 rest hd2 hl => ?_⟩⟩
  rw [(main.2 _ _ _ hd).2 _ _ _ hd2 hl]
  cases fastKeypairL P f p m1 (pk + oidLen) (sk + oidLen) (stored tr1 ++ stored tr2) <;> rfl

/-- **C87 (key generation with the device, fast build).**  Two separate buffers of the announced sizes, the secret-key buffer
initialised.  Whatever the device does, key generation is defined.  When it returns, it returns 0; SK_SEED and SK_PRF are the
`2n` bytes of the first call of `randombytes` and PUB_SEED the `n` bytes of the second; the public key is the one RFC 8391
makes of them, the secret key is the one of the first model for these seeds, and nothing else of the caller's memory has
changed.  It waits if fewer than `3n` bytes come in all or the device cannot be opened; it returns if the device can be opened, some
reads bring `2n` bytes and the following ones `n`. -/
theorem C87_keypair_fast (hp : f.parseFast oid = some p) (hH : Xmss.coreHash P p.func p.n = some H) (dev : Device) (m : Mem)
    (pk sk : Ptr) (sk0 : Bytes) (hskl : sk0.length = 4 + p.sk_bytes) (hpk : Room m pk (4 + p.pk_bytes)) (hsk : Holds m sk sk0)
    (hd : Apart pk (4 + p.pk_bytes) sk sk0.length) (pk0 : Bytes) (hpk0 : pk0.length = 4 + p.pk_bytes) :
    ∃ o, apiKeypairFastOsL P f dev m pk sk oid = some o ∧
      (∀ ret m' rest, o = .done ret m' rest → ret = 0 ∧
        ∃ (k : Key) (used1 used2 : List ReadResult) (tr1 tr2 : List (Nat × Nat × Bytes)) (sk' : Bytes),
        dev.reads = used1 ++ used2 ++ rest ∧ From used1 tr1 ∧ From used2 tr2 ∧ k.skSeed ++ k.skPrf = stored tr1 ∧
        k.pubSeed = stored tr2 ∧ k.Valid p ∧ k.Honest (suiteOf p H) ∧ Holds m' pk (k.pk oid) ∧ Holds m' sk sk' ∧
        sk'.take (4 + p.index_bytes + 4 * p.n) = k.sk p oid 0 ∧
        f.keypairFast P pk0 sk0 oid (fun _ => k.skSeed ++ k.skPrf ++ k.pubSeed) = some (0, k.pk oid, sk') ∧
        OnlyIn m m' [(pk, 4 + p.pk_bytes), (sk, 4 + p.sk_bytes)]) ∧
      (dev.total < 3 * p.n ∨ (dev.isOpen = false ∧ true ∉ dev.opens) → o = .waiting) ∧
      (∀ r1 r2, dev.reads = r1 ++ r2 → 2 * p.n ≤ ((r1.map fun r => r.getD []).flatten).length →
        p.n ≤ ((r2.map fun r => r.getD []).flatten).length → dev.Sane → o ≠ .waiting) := by
  obtain ⟨g, hskb, ho8, _, _, _⟩ := parseFast_good hp
  have hn := g.n_pos
  have key : ∀ S : Bytes, S.length = 3 * p.n → ∃ (k : Key) (m' : Mem) (sk' : Bytes), k.skSeed ++ k.skPrf ++ k.pubSeed = S ∧
      k.Honest (suiteOf p H) ∧ k.Valid p ∧ apiKeypairFastL P f m pk sk oid (fun _ => S) = some (0, m') ∧ Holds m' pk (k.pk oid) ∧
      Holds m' sk sk' ∧ sk'.take (4 + p.index_bytes + 4 * p.n) = k.sk p oid 0 ∧
      f.keypairFast P pk0 sk0 oid (fun _ => S) = some (0, k.pk oid, sk') ∧
      OnlyIn m m' [(pk, 4 + p.pk_bytes), (sk, 4 + p.sk_bytes)] := by
    intro S hS
    have h3 := split3 S p.n p.n
    obtain ⟨k, k1, k2, k3, k4, k5, sk', k6, _, k7, k8⟩ := C30_key_layout_fast (P := P) hp hH pk0 sk0 hpk0 hskl (fun _ => S) _ _ _ h3
      (by simp; omega) (by simp; omega) (by simp; omega)
    obtain ⟨m', j1, j2, j3, j4, _⟩ := C84_keypair (P := P) hp m pk sk sk0 hskl hpk hsk hd (fun _ => S) hS pk0 hpk0 _ _ _ k6
    rw [hskl] at j4
    exact ⟨k, m', sk', by rw [k1, k2, k3]; exact h3.symm, k4, k5, j1, j2, j3, k8, k6, j4⟩
  obtain ⟨_, m0, _, _, _, _, e0, _⟩ := key (List.replicate (3 * p.n) 0) (by simp)
  have eqs := apiKeypairFastOsL_eq (P := P) hp dev m pk sk _ (by simp) _ e0
  -- what a device with enough bytes does
  have enough : ∀ q1 q2, dev.reads = q1 ++ q2 → 2 * p.n ≤ ((q1.map fun r => r.getD []).flatten).length →
      p.n ≤ ((q2.map fun r => r.getD []).flatten).length → dev.Sane → ∃ mem1 t1 r1, draw dev (2 * p.n) = some (.returned mem1 t1 r1) ∧
        draw (.after r1) p.n ≠ some .waiting := by
    intro q1 q2 he hn1 hn2 hs
    obtain ⟨mm1, t1, r1, e1⟩ := C40_returns dev.isOpen dev.opens q1 (List.replicate (2 * p.n) 0) 0 (2 * p.n) (by simp) hs.1
        (fun d hd => hs.2 d (he ▸ List.mem_append_left _ hd)) hn1
    obtain ⟨o, ho, hspec⟩ := C40_fills_buffer dev.isOpen dev.opens q1 (List.replicate (2 * p.n) 0) 0 (2 * p.n) (by simp)
    rw [e1] at ho
    obtain ⟨u1, hu1, _⟩ := hspec mm1 t1 r1 (Option.some.inj ho).symm
    have e2 : draw dev (2 * p.n) = some (.returned mm1 t1 (r1 ++ q2)) := by
      rw [draw, he]
      unfold randombytes at e1 ⊢
      split at e1
      · rename_i hc
        rw [if_pos hc]
        exact randomLoop_append _ _ _ _ _ _ e1
      · cases e1
    refine ⟨_, _, _, e2, (draw_cases _ _).2.1 ?_ ⟨Or.inl rfl, fun d hd => hs.2 d ?_⟩⟩
    · simp only [Device.total, Device.after, List.map_append, List.flatten_append, List.length_append]; omega
    · rw [he]
      rcases List.mem_append.1 hd with h | h
      · exact List.mem_append_left _ (by rw [hu1]; exact List.mem_append_right _ h)
      · exact List.mem_append_right _ h
  obtain ⟨w1, w2, w3⟩ := draw_cases dev (2 * p.n)
  rcases w3 with hw | ⟨mem1, used1, tr1, rest1, hd1, hu1, hf1, hc1, hl1⟩
  · refine ⟨_, eqs.1 hw, fun _ _ _ h => (by cases h), fun _ => rfl, fun q1 q2 a b c d => ?_⟩
    obtain ⟨_, _, _, h, _⟩ := enough q1 q2 a b c d
    rw [hw] at h
    cases h
  · obtain ⟨_, _, w3'⟩ := draw_cases (.after rest1) p.n
    rcases w3' with hw | ⟨mem2, used2, tr2, rest, hd2, hu2, hf2, hc2, hl2⟩
    · refine ⟨_, (eqs.2 _ _ _ hd1).1 hw, fun _ _ _ h => (by cases h), fun _ => rfl, fun q1 q2 a b c d => ?_⟩
      obtain ⟨_, _, _, h, h'⟩ := enough q1 q2 a b c d
      rw [hd1] at h
      cases h
      exact absurd hw h'
    · obtain ⟨k, m', sk', a, b, c, e, d1, d2, d3, d4, d5⟩ := key (stored tr1 ++ stored tr2) (by rw [List.length_append, hl1, hl2]; omega)
      have hl : (k.skSeed ++ k.skPrf).length = (stored tr1).length := by rw [List.length_append, c.1, c.2, hl1]; omega
      obtain ⟨s1, s2⟩ := List.append_inj a hl
      have hrest : dev.reads = used1 ++ used2 ++ rest := by
        rw [hu1, List.append_assoc]
        exact congrArg _ hu2
      refine ⟨_, by rw [(eqs.2 _ _ _ hd1).2 _ _ _ hd2 hl1, e]; rfl, ?_, ?_, fun _ _ _ _ _ _ h => by cases h⟩
      · intro ret m2 rest2 h
        cases h
        exact ⟨rfl, k, used1, used2, tr1, tr2, sk', hrest, hf1, hf2, s1, s2, c, b, d1, d2, d3, by rw [a]; exact d4, d5⟩
      · intro h
        exfalso
        rcases h with h | h
        · have b1 := From.stored_le hf1
          have b2 := From.stored_le hf2
          rw [Device.total, hrest] at h
          simp only [List.map_append, List.flatten_append, List.length_append] at h
          omega
        · rw [w1 (Or.inr h)] at hd1
          cases hd1

/-- **C87 (undefined, fast build).**  As `C84_undefined_keypair`: with a secret-key buffer that is uninitialised at the first byte
behind the first state's stack, fast key generation is undefined behaviour whatever the device does. -/
theorem C87_undefined_keypair (hp : f.parseFast oid = some p) (dev : Device) (m : Mem) (pk sk : Ptr)
    (hpk : Room m pk 4) (hsk : Room m sk 4) (hd : Apart pk 4 sk 4)
    (hd2 : Apart pk 4 (sk + (4 + p.index_bytes + 4 * p.n + (p.tree_height + 1) * p.n)) 1)
    (hu : load m (sk + (4 + p.index_bytes + 4 * p.n + (p.tree_height + 1) * p.n)) 1 = none) :
    apiKeypairFastOsL P f dev m pk sk oid = none := by
  obtain ⟨a2, e3, hds⟩ := keypair_reads_sk P hp m pk sk hpk hsk hd hd2 hu
  rw [apiKeypairFastOsL, apiKeypairWith, hp]
  simp only [Option.bind_eq_bind]
  rw [e3, Option.bind_some]
  have hk : fastKeypairStartL f p a2 (sk + oidLen) = none := by
    show fastKeypairStartL f p a2 (sk + 4) = none
    cases f with
    | xmss => rw [fastKeypairStartL, hds]; split <;> rfl
    | xmssmt => rw [fastKeypairStartL, hds]; split <;> rfl
  rw [fastKeypairOs, hk]
  rfl

/-- An OID that the library does not know: -1, no byte drawn, memory unchanged, in both builds. -/
theorem C87_keypair_unknown (dev : Device) (m : Mem) (pk sk : Ptr) :
    (f.parse oid = none → apiKeypairOsL P f dev m pk sk oid = some (.done (-1) m dev.reads)) ∧
    (f.parseFast oid = none → apiKeypairFastOsL P f dev m pk sk oid = some (.done (-1) m dev.reads)) := by
  constructor <;> intro hp
  · rw [apiKeypairOsL, apiKeypairWith, hp]
  · rw [apiKeypairFastOsL, apiKeypairWith, hp]

/-! ### The key generation tool -/

/-- **C87 (key generation tool, simple build).**  For every known name and every course of the device the tool is defined.  When it
returns, it exits with 0 and has written the key pair that RFC 8391 makes of the first `3n` bytes taken from the device; it
waits as long as fewer come, and returns if enough come.  For other arguments it returns -1 and writes nothing. -/
theorem C87_keypair_tool (dev : Device) :
    (∀ name oid p H, f.strToOid name = some oid → f.parse oid = some p → Xmss.coreHash P p.func p.n = some H →
      ∃ o, uiKeypairOsL f.parse (apiKeypairOsL P f) f dev [name] = some o ∧
        (∀ run, o = .done run → run.exit = 0 ∧ ∃ (k : Key) (used rest : List ReadResult) (tr : List (Nat × Nat × Bytes)),
          dev.reads = used ++ rest ∧ From used tr ∧ Contiguous 0 (3 * p.n) tr ∧ k.skSeed ++ k.skPrf ++ k.pubSeed = stored tr ∧
          k.Valid p ∧ k.Honest (suiteOf p H) ∧ run.stdout = k.pk oid ++ k.sk p oid 0) ∧
        (dev.total < 3 * p.n ∨ (dev.isOpen = false ∧ true ∉ dev.opens) → o = .waiting) ∧
        (3 * p.n ≤ dev.total → dev.Sane → o ≠ .waiting)) ∧
    (∀ args, (∀ name, args = [name] → (f.strToOid name).bind f.parse = none) →
      uiKeypairOsL f.parse (apiKeypairOsL P f) f dev args = some (.done { exit := -1, stdout := [] })) := by
  constructor
  · intro name oid p H hn hp hH
    obtain ⟨g, hskb, ho, _⟩ := Family.facts (P := P) hp
    obtain ⟨s1, s2, s3, _⟩ := sizes_simple hp
    obtain ⟨a1, a2⟩ := two_bufs (a := oidLen + p.pk_bytes) (b := oidLen + p.sk_bytes) (Nat.add_pos_left (by decide) _)
      (Nat.add_pos_left (by decide) _) s2 s1
    obtain ⟨o, h1, h2, h3, h4⟩ := C87_keypair (P := P) hp hH dev
      [List.replicate (oidLen + p.pk_bytes) none, List.replicate (oidLen + p.sk_bytes) none] ⟨0, 0⟩ ⟨1, 0⟩
      (room_fresh rfl (by simp [oidLen])) (room_fresh rfl (by simp [oidLen])) (apart_blk (by omega))
    rw [uiKeypairOsL]
    dsimp only
    rw [hn, Option.getD_some, hp]
    dsimp only
    simp only [Option.bind_eq_bind]
    rw [a1, Option.bind_some]
    dsimp only
    rw [a2, Option.bind_some]
    dsimp only
    rw [h1, Option.bind_some]
    cases o with
    | waiting => exact ⟨.waiting, rfl, fun _ h => (by cases h), fun _ => rfl, fun a b => absurd rfl (h4 a b)⟩
    | done ret m' rest =>
      obtain ⟨_, k, used, tr, b1, b2, b3, b4, b5, b6, b7, b8, _⟩ := h2 _ _ _ rfl
      have e4 : oidLen = 4 := rfl
      have hpkl : (k.pk oid).length = 4 + p.pk_bytes := by
        simp [Key.pk, toByte_length, b5.root, b5.pubSeed, g.pk_eq]; omega
      dsimp only
      rw [b7.load (by rw [hpkl, e4, w32_lt s2]), Option.bind_some, b8.load (by rw [Key.sk_length b5 hskb, e4, w32_lt s1]),
        Option.bind_some]
      refine ⟨_, rfl, ?_, fun h => (by cases h3 h), fun _ _ h => by cases h⟩
      intro run h
      cases h
      exact ⟨rfl, k, used, rest, tr, b1, b2, b3, b4, b5, b6, rfl⟩
  · intro args h
    unfold uiKeypairOsL
    split
    · next name =>
      dsimp only
      have h0 : f.parse 0 = none := by cases f <;> rfl
      have := h name rfl
      cases hn : f.strToOid name with
      | none => rw [Option.getD_none, h0]
      | some oid =>
        rw [hn, Option.bind_some] at this
        rw [Option.getD_some, this]
    · rfl

/-! ### Instances -/

/-- XMSS OID 1 with uninitialised buffers and a device that opens at the second attempt and delivers 50 bytes, an error and 46
bytes: key generation returns with the public key of those bytes in its buffer. -/
example (P : Prims) (p : Params) (hp : Family.xmss.parse 1 = some p) (hn : p.n = 32) :
    ∃ (m' : Mem) (k : Key) (rest : List ReadResult), apiKeypairOsL P .xmss
      { isOpen := false, opens := [false, true], reads := [some (List.replicate 50 7), none, some (List.replicate 46 9)] }
      [List.replicate (4 + p.pk_bytes) none, List.replicate (4 + p.sk_bytes) none] ⟨0, 0⟩ ⟨1, 0⟩ 1 = some (.done 0 m' rest) ∧
      Holds m' ⟨0, 0⟩ (k.pk 1) := by
  obtain ⟨_, _, _, H, hH⟩ := Family.facts (P := P) hp
  obtain ⟨o, h1, h2, h3, h4⟩ := C87_keypair (P := P) hp hH
    { isOpen := false, opens := [false, true], reads := [some (List.replicate 50 7), none, some (List.replicate 46 9)] }
    [List.replicate (4 + p.pk_bytes) none, List.replicate (4 + p.sk_bytes) none] ⟨0, 0⟩ ⟨1, 0⟩
    (room_fresh rfl (by simp)) (room_fresh rfl (by simp)) (apart_blk (by omega))
  cases o with
  | waiting => exact absurd rfl (h4 (by rw [hn]; decide +kernel) ⟨by decide, by decide +kernel⟩)
  | done ret m' rest =>
    obtain ⟨r0, k, _, _, _, _, _, _, _, _, b, _⟩ := h2 _ _ _ rfl
    exact ⟨m', k, rest, by rw [h1, r0], b⟩
/-- One byte less, and it waits. -/
example (P : Prims) (p : Params) (hp : Family.xmss.parse 1 = some p) (hn : p.n = 32) :
    apiKeypairOsL P .xmss
      { isOpen := false, opens := [false, true], reads := [some (List.replicate 50 7), none, some (List.replicate 45 9)] }
      [List.replicate (4 + p.pk_bytes) none, List.replicate (4 + p.sk_bytes) none] ⟨0, 0⟩ ⟨1, 0⟩ 1 = some .waiting := by
  obtain ⟨_, _, _, H, hH⟩ := Family.facts (P := P) hp
  obtain ⟨o, h1, h2, h3, h4⟩ := C87_keypair (P := P) hp hH
    { isOpen := false, opens := [false, true], reads := [some (List.replicate 50 7), none, some (List.replicate 45 9)] }
    [List.replicate (4 + p.pk_bytes) none, List.replicate (4 + p.sk_bytes) none] ⟨0, 0⟩ ⟨1, 0⟩
    (room_fresh rfl (by simp)) (room_fresh rfl (by simp)) (apart_blk (by omega))
  rw [h1, h3 (Or.inl (by rw [hn]; decide +kernel))]
/-- The fast build with a zeroed secret-key buffer, XMSSMT OID 1: 64 bytes, an error, 32 bytes. -/
example (P : Prims) (p : Params) (hp : Family.xmssmt.parseFast 1 = some p) (hn : p.n = 32) :
    ∃ (m' : Mem) (k : Key) (rest : List ReadResult), apiKeypairFastOsL P .xmssmt
      { isOpen := true, opens := [], reads := [some (List.replicate 64 7), none, some (List.replicate 32 9)] }
      [List.replicate (4 + p.pk_bytes) none, (List.replicate (4 + p.sk_bytes) 0).map some] ⟨0, 0⟩ ⟨1, 0⟩ 1 = some (.done 0 m' rest) ∧
      Holds m' ⟨0, 0⟩ (k.pk 1) := by
  obtain ⟨H, hH, _⟩ := Family.hashFast (P := P) hp
  obtain ⟨o, h1, h2, h3, h4⟩ := C87_keypair_fast (P := P) hp hH
    { isOpen := true, opens := [], reads := [some (List.replicate 64 7), none, some (List.replicate 32 9)] }
    [List.replicate (4 + p.pk_bytes) none, (List.replicate (4 + p.sk_bytes) 0).map some] ⟨0, 0⟩ ⟨1, 0⟩ (List.replicate (4 + p.sk_bytes) 0)
    (by simp) (room_fresh rfl (by simp)) (holds_block rfl) (apart_blk (by omega)) (List.replicate (4 + p.pk_bytes) 0) (by simp)
  cases o with
  | waiting => exact absurd rfl (h4 [some (List.replicate 64 7)] [none, some (List.replicate 32 9)] rfl (by rw [hn]; decide +kernel)
      (by rw [hn]; decide +kernel) ⟨by decide, by decide +kernel⟩)
  | done ret m' rest =>
    obtain ⟨r0, k, _, _, _, _, _, _, _, _, _, _, _, _, b, _⟩ := h2 _ _ _ rfl
    exact ⟨m', k, rest, by rw [h1, r0], b⟩

end Xmss.Low
