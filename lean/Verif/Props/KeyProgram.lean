import Verif.Props.ManyKeys
/-
C88, continued: programs that create their keys and sign with them, in any order.
-/
namespace Xmss.Low

variable {P : Prims}

/-- The random bytes that key generation gets when it makes the key of the slot. -/
def Slot.seeds (s : Slot) : Bytes := s.k.skSeed ++ s.k.skPrf ++ s.k.pubSeed

/-- The root in the key is the root of its tree. -/
def Slot.HonestKey (P : Prims) (s : Slot) : Prop := ∃ H, Xmss.coreHash P s.p.func s.p.n = some H ∧ s.k.Honest (suiteOf s.p H)

/-- One verification of the program: under which key, memory before it, the arguments, and the bytes of the signed message. -/
structure OpenCall where
  who : Nat
  before : Mem
  pk : Ptr
  sm : Ptr
  mout : Ptr
  mlen0 : Nat
  sig : Bytes
  M : Bytes

/-- What the verification does. -/
def runOpen (P : Prims) (s : Slot) (c : OpenCall) : Option (Int × Nat × Mem) :=
  apiOpen P s.f.parse c.before c.mout c.mlen0 c.sm (s.p.sig_bytes + c.M.length) c.pk

/-- A step of the program: it makes key `t`, with the public key at `pk`, or signs, or verifies. -/
inductive Event where
  | gen (t : Nat) (before : Mem) (pk : Ptr)
  | sign (c : KeyCall)
  | verify (c : OpenCall)

/-- Memory before the step. -/
def Event.before : Event → Mem
  | .gen _ b _ => b
  | .sign c => c.before
  | .verify c => c.before

/-- What the step does: return value, memory. -/
def Event.run (P : Prims) (slots : List Slot) : Event → Option (Int × Mem)
  | .gen t b pk => slots[t]?.bind fun s => apiKeypair P s.f.parse b pk s.sk s.oid fun _ => s.seeds
  | .sign c => slots[c.who]?.bind fun s => (runSimple P s c).map fun r => (r.1, r.2.2)
  | .verify c => slots[c.who]?.bind fun s => (runOpen P s c).map fun r => (r.1, r.2.2)

/-- The next unused index of each key, after the step; `none`: the key is not made yet. -/
def Event.next (idx : Nat → Option Nat) : Event → Nat → Option Nat
  | .gen t _ _ => fun u => if u = t then some 0 else idx u
  | .sign c => fun u => if u = c.who then (idx u).map (· + 1) else idx u
  | .verify _ => idx

/-- The next unused indices after the steps `es`. -/
def indices (idx : Nat → Option Nat) (es : List Event) : Nat → Option Nat := es.foldl Event.next idx

/-- Memory holds every key made so far, with its next unused index. -/
def Live (slots : List Slot) (idx : Nat → Option Nat) (m : Mem) : Prop :=
  ∀ (t : Nat) (s : Slot) (i : Nat), slots[t]? = some s → idx t = some i → Holds m s.sk (s.k.sk s.p s.oid i)

/-- The step is made with proper buffers.  A key is made once, in buffers of the announced size, initialised or not, that do not overlap
each other, the public key not over a key in use.  A signing key is in use and not used up, and the output overlaps no key in use.  A
verification gets a public key and any bytes as signed message; its output buffer overlaps neither of them and no key in use. -/
def Event.Ok (P : Prims) (slots : List Slot) (idx : Nat → Option Nat) : Event → Prop
  | .gen t b pk => ∃ s, slots[t]? = some s ∧ s.HonestKey P ∧ idx t = none ∧ Room b pk (4 + s.p.pk_bytes) ∧ Room b s.sk (4 + s.p.sk_bytes) ∧
      ∀ t' s', slots[t']? = some s' → (t' = t ∨ idx t' ≠ none) → Apart s'.sk (4 + s'.p.sk_bytes) pk (4 + s.p.pk_bytes)
  | .sign c => ∃ s i, slots[c.who]? = some s ∧ idx c.who = some i ∧ i < 2 ^ s.p.full_height - 1 ∧
      Room c.before c.sm (s.p.sig_bytes + c.M.length) ∧ Holds c.before c.msg c.M ∧
      (∀ t' s', slots[t']? = some s' → idx t' ≠ none → Apart s'.sk (4 + s'.p.sk_bytes) c.sm (s.p.sig_bytes + c.M.length)) ∧
      Apart c.msg c.M.length (c.sm + s.p.sig_bytes) c.M.length ∧ s.p.sig_bytes + c.M.length < 2 ^ 64
  | .verify c => ∃ s, slots[c.who]? = some s ∧ Holds c.before c.pk (s.k.pk s.oid) ∧ Holds c.before c.sm (c.sig ++ c.M) ∧
      c.sig.length = s.p.sig_bytes ∧ Room c.before c.mout (s.p.sig_bytes + c.M.length) ∧
      Apart c.sm (s.p.sig_bytes + c.M.length) c.mout (s.p.sig_bytes + c.M.length) ∧
      Apart c.pk (4 + s.p.pk_bytes) c.mout (s.p.sig_bytes + c.M.length) ∧
      (∀ t' s', slots[t']? = some s' → idx t' ≠ none → Apart s'.sk (4 + s'.p.sk_bytes) c.mout (s.p.sig_bytes + c.M.length)) ∧
      s.p.sig_bytes + c.M.length < 2 ^ 64

/-- The steps are made one after the other with proper buffers; between them the program may change memory in any way, except for
the secret-key buffers in use. -/
def Program (P : Prims) (slots : List Slot) : Mem → (Nat → Option Nat) → List Event → Prop
  | _, _, [] => True
  | m, idx, e :: es => e.Ok P slots idx ∧
      (∀ t s, slots[t]? = some s → idx t ≠ none → ∀ x : Bytes, x.length = 4 + s.p.sk_bytes → Holds m s.sk x → Holds e.before s.sk x) ∧
      ∀ r m', e.run P slots = some (r, m') → Program P slots m' (e.next idx) es

/-- What the step is to do: key generation returns 0 and leaves the key pair; signing returns 0 and the signature of RFC 8391 with the
next index of its key; verification returns 0 and the message if RFC 8391 accepts the signature, and else -1 and zeros.  Each writes only
its buffers, and all keys made so far stay in place. -/
def Event.Does (P : Prims) (slots : List Slot) (idx : Nat → Option Nat) : Event → Prop
  | .gen t b pk => ∃ s m', slots[t]? = some s ∧ (apiKeypair P s.f.parse b pk s.sk s.oid fun _ => s.seeds) = some (0, m') ∧
      Holds m' pk (s.k.pk s.oid) ∧ Live slots (fun u => if u = t then some 0 else idx u) m' ∧
      OnlyIn b m' [(pk, 4 + s.p.pk_bytes), (s.sk, 4 + s.p.sk_bytes)]
  | .sign c => ∃ s i H m', slots[c.who]? = some s ∧ idx c.who = some i ∧ Xmss.coreHash P s.p.func s.p.n = some H ∧
      runSimple P s c = some (0, s.p.sig_bytes + c.M.length, m') ∧
      Holds m' c.sm ((suiteOf s.p H).sign s.k.skSeed s.k.skPrf s.k.root s.k.pubSeed i c.M ++ c.M) ∧
      Live slots (fun u => if u = c.who then some (i + 1) else idx u) m' ∧
      OnlyIn c.before m' [(s.sk + 4, s.p.index_bytes), (c.sm, s.p.sig_bytes + c.M.length)]
  | .verify c => ∃ s H m', slots[c.who]? = some s ∧ Xmss.coreHash P s.p.func s.p.n = some H ∧ Live slots idx m' ∧
      OnlyIn c.before m' [(c.mout, s.p.sig_bytes + c.M.length)] ∧
      ((suiteOf s.p H).verify s.k.root s.k.pubSeed c.M c.sig → runOpen P s c = some (0, c.M.length, m') ∧ Holds m' c.mout c.M) ∧
      (¬ (suiteOf s.p H).verify s.k.root s.k.pubSeed c.M c.sig →
        runOpen P s c = some (-1, 0, m') ∧ Holds m' c.mout (List.replicate c.M.length 0))

theorem slot_length (P : Prims) {s : Slot} (h : s.Good) (i : Nat) : (s.k.sk s.p s.oid i).length = 4 + s.p.sk_bytes := by
  obtain ⟨_, hskb, _⟩ := Family.facts (P := P) h.parse
  exact Key.sk_length h.valid hskb _ _

/-- One step. -/
theorem Event.step (slots : List Slot) (hg : ∀ s ∈ slots, s.Good) (hsep : Separate slots) (e : Event) (idx : Nat → Option Nat)
    (hl : Live slots idx e.before) (hok : e.Ok P slots idx) :
    e.Does P slots idx ∧ ∃ r m', e.run P slots = some (r, m') ∧ Live slots (e.next idx) m' := by
  cases e with
  | gen t b pk =>
    obtain ⟨s, hs, ⟨H, hH, hh⟩, hn, hpk, hsk, hap⟩ := hok
    have hmem := List.mem_of_getElem? hs
    obtain ⟨hp, hv⟩ := hg s hmem
    obtain ⟨k, m', k1, k2, k3, k4, _, e1, e2, e3, e4⟩ := C83_keypair (P := P) hp hH b pk s.sk hpk hsk (Disj.symm (hap t s hs (Or.inl rfl)))
      (fun _ => s.seeds) s.k.skSeed s.k.skPrf s.k.pubSeed rfl hv.skSeed hv.skPrf hv.pubSeed
    have hkk : k = s.k := by
      have hr : k.root = s.k.root := by
        have a : k.root = _ := k4
        have b : s.k.root = _ := hh
        rw [a, b, k1, k3]
      cases k; cases h' : s.k
      simp only [h'] at k1 k2 k3 hr
      subst k1 k2 k3 hr
      rfl
    subst hkk
    have hlive : Live slots (fun u => if u = t then some 0 else idx u) m' := by
      intro t' s' i h' hi
      by_cases ht : t' = t
      · subst ht
        rw [hs] at h'
        obtain rfl := Option.some.inj h'
        simp only [if_true, Option.some.injEq] at hi
        subst hi
        exact e3
      · simp only [if_neg ht] at hi
        refine (hl t' s' i h' hi).keep e4 ?_
        intro r hr
        rw [slot_length P (hg s' (List.mem_of_getElem? h'))]
        simp only [List.mem_cons, List.not_mem_nil, or_false] at hr
        rcases hr with rfl | rfl
        · exact hap t' s' h' (Or.inr (by rw [hi]; simp))
        · exact hsep _ _ _ _ ht h' hs
    exact ⟨⟨s, m', hs, e1, e2, hlive, e4⟩, 0, m', by simp only [Event.run, hs, Option.bind_some, e1], hlive⟩
  | sign c =>
    obtain ⟨s, i, hs, hi, hlt, hr, hM, hap, hdm, hlen⟩ := hok
    have hsm : s ∈ slots := List.mem_of_getElem? hs
    obtain ⟨hp, hv⟩ := hg s hsm
    obtain ⟨g, hskb, ho, H, hH⟩ := Family.facts (P := P) hp
    have hHl := Family.hash_length hp hH
    have hif := g.idx_fits
    obtain ⟨m', e1, e2, e3, e4, _⟩ := C83_sign (P := P) hp hH s.k hv i (by omega) c.before s.sk c.sm c.msg c.smlen0 c.M
      (hl _ _ _ hs hi) hr hM (hap _ s hs (by rw [hi]; simp)) hdm hlen
    rw [if_pos (by omega)] at e1
    obtain ⟨e5, e6⟩ := e4 (by omega)
    rw [nextKey, if_pos (by omega), nextIdx, if_pos (by omega)] at e2
    have hlive : Live slots (fun u => if u = c.who then some (i + 1) else idx u) m' := by
      intro t' s' i' h' hi'
      by_cases ht : t' = c.who
      · subst ht
        rw [hs] at h'
        obtain rfl := Option.some.inj h'
        simp only [if_true, Option.some.injEq] at hi'
        subst hi'
        exact e2
      · simp only [if_neg ht] at hi'
        refine (hl t' s' i' h' hi').keep e6 ?_
        intro r hr'
        rw [slot_length P (hg s' (List.mem_of_getElem? h'))]
        simp only [List.mem_cons, List.not_mem_nil, or_false] at hr'
        rcases hr' with rfl | rfl
        · exact Disj.sub (hsep _ _ _ _ ht h' hs) 4 _ (by rw [hskb]; omega)
        · exact hap _ s' h' (by rw [hi']; simp)
    have hrun : runSimple P s c = some (0, s.p.sig_bytes + c.M.length, m') := e1
    refine ⟨⟨s, i, H, m', hs, hi, hH, hrun, ?_, hlive, e6⟩, 0, m', by simp only [Event.run, hs, Option.bind_some, hrun, Option.map_some], ?_⟩
    · exact e5.append (y := c.M) (by rw [sign_length g hHl]; exact e3)
    · have : (Event.sign c).next idx = fun u => if u = c.who then some (i + 1) else idx u := by
        funext u
        by_cases hu : u = c.who
        · subst hu; simp [Event.next, hi]
        · simp [Event.next, hu]
      rw [this]
      exact hlive
  | verify c =>
    obtain ⟨s, hs, h1, h2, h3, h4, h5, h6, h7, h8⟩ := hok
    obtain ⟨hp, hv⟩ := hg s (List.mem_of_getElem? hs)
    obtain ⟨_, _, _, H, hH⟩ := Family.facts (P := P) hp
    obtain ⟨m', e1, e2, e3⟩ := C83_open (P := P) hp hH s.k hv.root hv.pubSeed c.before c.mout c.sm c.pk c.mlen0 c.sig c.M h1 h2 h3 h4 h5 h6 h8
    have hlive : Live slots idx m' := by
      intro t' s' i' h' hi'
      refine (hl t' s' i' h' hi').keep e1 ?_
      intro r hr
      rw [slot_length P (hg s' (List.mem_of_getElem? h')), List.mem_singleton.mp hr]
      exact h7 t' s' h' (by rw [hi']; simp)
    refine ⟨⟨s, H, m', hs, hH, hlive, e1, e2, e3⟩, ?_⟩
    have hrun : ∀ r l, runOpen P s c = some (r, l, m') → (Event.verify c).run P slots = some (r, m') := fun r l h => by
      simp only [Event.run, hs, Option.bind_some, h, Option.map_some]
    by_cases hc : (suiteOf s.p H).verify s.k.root s.k.pubSeed c.M c.sig
    · exact ⟨0, m', hrun _ _ (e2 hc).1, hlive⟩
    · exact ⟨-1, m', hrun _ _ (e3 hc).1, hlive⟩

/-- **C88 (programs that make their keys, sign and verify).**  A program makes any number of keys, of both families and any parameter
sets, signs with them and verifies anything, in any order of these steps.  Every step is defined and does what it should: see `Event.Does`. -/
theorem C88_program (slots : List Slot) (hg : ∀ s ∈ slots, s.Good) (hsep : Separate slots) :
    ∀ (es : List Event) (m : Mem) (idx : Nat → Option Nat), Live slots idx m → Program P slots m idx es →
    ∀ j e, es[j]? = some e → e.Does P slots (indices idx (es.take j)) ∧
      ∃ r m', e.run P slots = some (r, m') ∧ Live slots (indices idx (es.take (j + 1))) m'
  | [], _, _, _, _ => by intro j e h; simp at h
  | e :: es, m, idx, hl, ⟨hok, hu, hnext⟩ => by
    have hl' : Live slots idx e.before := fun t s i hs hi =>
      hu t s hs (by rw [hi]; simp) _ (slot_length P (hg s (List.mem_of_getElem? hs)) i) (hl t s i hs hi)
    obtain ⟨h1, r, m', h2, h3⟩ := Event.step (P := P) slots hg hsep e idx hl' hok
    intro j e' hj
    cases j with
    | zero =>
      obtain rfl : e = e' := by simpa using hj
      exact ⟨h1, r, m', h2, h3⟩
    | succ j =>
      exact C88_program slots hg hsep es m' _ h3 (hnext _ _ h2) j e' (by simpa using hj)

/-- No key is in use before the program starts. -/
theorem live_none (slots : List Slot) (m : Mem) : Live slots (fun _ => none) m := by
  intro t s i _ h
  cases h

/-- The step on memory `m`, with the public keys at `pks`, one output buffer and one message: make key `t` or sign with it. -/
def stepAt (pks : Nat → Ptr) (sm msg : Ptr) (M : Bytes) (m : Mem) (w : Bool × Nat) : Event :=
  if w.1 then .gen w.2 m (pks w.2) else .sign ⟨w.2, m, sm, 0, msg, M⟩

/-- The indices after the steps `ws`, and that each step is possible: a key is made once, before its first use, and not used up. -/
def Sensible (slots : List Slot) : (Nat → Option Nat) → List (Bool × Nat) → Prop
  | _, [] => True
  | idx, w :: ws => (∃ s, slots[w.2]? = some s ∧
      (if w.1 then idx w.2 = none else ∃ i, idx w.2 = some i ∧ i < 2 ^ s.p.full_height - 1)) ∧
      Sensible slots (fun u => if u = w.2 then (if w.1 then some 0 else (idx u).map (· + 1)) else idx u) ws

theorem stepAt_next (pks : Nat → Ptr) (sm msg : Ptr) (M : Bytes) (m : Mem) (w : Bool × Nat) (idx : Nat → Option Nat) :
    (stepAt pks sm msg M m w).next idx = fun u => if u = w.2 then (if w.1 then some 0 else (idx u).map (· + 1)) else idx u := by
  unfold stepAt
  obtain ⟨b, t⟩ := w
  cases b <;> rfl

/-- There are such programs: with separate buffers, in any sensible order. -/
theorem C88_program_instance (slots : List Slot) (hg : ∀ s ∈ slots, s.Good) (hh : ∀ s ∈ slots, s.HonestKey P) (hsep : Separate slots)
    (pks : Nat → Ptr) (sm msg : Ptr) (M : Bytes) (N : Nat) (hN : ∀ s ∈ slots, s.p.sig_bytes + M.length ≤ N) (h64 : N < 2 ^ 64)
    (hap : ∀ s ∈ slots, Apart s.sk (4 + s.p.sk_bytes) sm N) (hms : Apart msg M.length sm N)
    (hmk : ∀ s ∈ slots, Apart msg M.length s.sk (4 + s.p.sk_bytes))
    (hmp : ∀ t s, slots[t]? = some s → Apart msg M.length (pks t) (4 + s.p.pk_bytes))
    (hpk : ∀ t s, slots[t]? = some s → ∀ s' ∈ slots, Apart s'.sk (4 + s'.p.sk_bytes) (pks t) (4 + s.p.pk_bytes)) :
    ∀ (ws : List (Bool × Nat)) (m : Mem) (idx : Nat → Option Nat), Live slots idx m → Room m sm N → Holds m msg M →
    (∀ t s, slots[t]? = some s → Room m (pks t) (4 + s.p.pk_bytes) ∧ Room m s.sk (4 + s.p.sk_bytes)) → Sensible slots idx ws →
    ∃ es : List Event, es.length = ws.length ∧ (∀ (j : Nat) (e : Event) (w : Bool × Nat), es[j]? = some e → ws[j]? = some w → ∃ m, e = stepAt pks sm msg M m w) ∧
      Program P slots m idx es
  | [], _, _, _, _, _, _, _ => ⟨[], rfl, by simp, trivial⟩
  | w :: ws, m, idx, hl, hr, hM, hroom, ⟨⟨s, hs, hw⟩, hws⟩ => by
    have hmem := List.mem_of_getElem? hs
    set e := stepAt pks sm msg M m w with he
    have hb : e.before = m := by
      rw [he, stepAt]
      split <;> rfl
    have hok : e.Ok P slots idx := by
      rw [he, stepAt]
      by_cases hb : w.1 = true
      · rw [if_pos hb]
        rw [if_pos hb] at hw
        exact ⟨s, hs, hh s hmem, hw, (hroom _ _ hs).1, (hroom _ _ hs).2, fun t' s' h' _ => hpk _ _ hs s' (List.mem_of_getElem? h')⟩
      · rw [if_neg hb]
        rw [if_neg hb] at hw
        obtain ⟨i, hi, hlt⟩ := hw
        have hsN := hN s hmem
        refine ⟨s, i, hs, hi, hlt, hr.imp fun o h => ⟨h.1, le_trans (Nat.add_le_add_left hsN _) h.2⟩, hM, ?_, ?_, lt_of_le_of_lt hsN h64⟩
        · exact fun t' s' h' _ => Disj.mono (hap s' (List.mem_of_getElem? h')) (Nat.le_refl _) hsN
        · exact Disj.sub hms s.p.sig_bytes _ hsN
    obtain ⟨hd, r0, m', hrun, hl'⟩ := Event.step (P := P) slots hg hsep e idx (by rw [hb]; exact hl) hok
    -- memory after the step: buffers stay, the message stays
    have hrooms : (∀ q n, Room m q n → Room m' q n) ∧ Holds m' msg M := by
      rw [he, stepAt] at hd hrun
      by_cases hb : w.1 = true
      · rw [if_pos hb] at hd hrun
        obtain ⟨s2, m2, a1, a2, _, _, a5⟩ := hd
        simp only [Event.run, a1, Option.bind_some, a2, Option.some.injEq, Prod.mk.injEq] at hrun
        obtain ⟨_, rfl⟩ := hrun
        refine ⟨fun q n h => h.keep a5, hM.keep a5 ?_⟩
        intro r hr'
        simp only [List.mem_cons, List.not_mem_nil, or_false] at hr'
        rcases hr' with rfl | rfl
        · exact hmp _ _ a1
        · exact hmk _ (List.mem_of_getElem? a1)
      · rw [if_neg hb] at hd hrun
        obtain ⟨s2, i, H, m2, a1, _, _, a2, _, _, a5⟩ := hd
        simp only [Event.run, a1, Option.bind_some, a2, Option.map_some, Option.some.injEq, Prod.mk.injEq] at hrun
        obtain ⟨_, rfl⟩ := hrun
        refine ⟨fun q n h => h.keep a5, hM.keep a5 ?_⟩
        intro r hr'
        have hm2 := List.mem_of_getElem? a1
        obtain ⟨_, hskb, _⟩ := Family.facts (P := P) (hg _ hm2).parse
        simp only [List.mem_cons, List.not_mem_nil, or_false] at hr'
        rcases hr' with rfl | rfl
        · exact Disj.sub (hmk _ hm2) 4 _ (by rw [hskb]; omega)
        · exact Disj.mono hms (Nat.le_refl _) (hN _ hm2)
    obtain ⟨es, b1, b2, b3⟩ := C88_program_instance slots hg hh hsep pks sm msg M N hN h64 hap hms hmk hmp hpk ws m' _ hl'
      (hrooms.1 _ _ hr) hrooms.2 (fun t s h => ⟨hrooms.1 _ _ (hroom t s h).1, hrooms.1 _ _ (hroom t s h).2⟩)
      (by rw [he, stepAt_next]; exact hws)
    refine ⟨e :: es, by simp [b1], ?_, hok, ?_, ?_⟩
    · intro j e' w' h1 h2
      cases j with
      | zero =>
        simp only [List.getElem?_cons_zero, Option.some.injEq] at h1 h2
        subst h1 h2
        exact ⟨m, he⟩
      | succ j => exact b2 j e' w' (by simpa using h1) (by simpa using h2)
    · intro _ _ _ _ _ _ h
      rw [hb]
      exact h
    · intro r m2 h2
      rw [hrun] at h2
      simp only [Option.some.injEq, Prod.mk.injEq] at h2
      obtain ⟨_, rfl⟩ := h2
      exact b3

/-- Make an XMSS key and sign with it; then make an XMSSMT key; sign with that, and again with the first: with any two honest keys of
OID 1, the hypotheses of `C88_program` hold in a memory where none of the key buffers is initialised. -/
example (P : Prims) (p q : Params) (hp : Family.xmss.parse 1 = some p) (hq : Family.xmssmt.parse 1 = some q) (k l : Key)
    (hk : k.Valid p) (hl : l.Valid q) (hpf : p.full_height = 10) (hqf : q.full_height = 20) (hps : p.sig_bytes ≤ 10000)
    (hqs : q.sig_bytes ≤ 10000) :
    let slots : List Slot := [⟨.xmss, 1, p, k, ⟨0, 0⟩⟩, ⟨.xmssmt, 1, q, l, ⟨1, 0⟩⟩]
    (∀ s ∈ slots, s.HonestKey P) →
    let m : Mem := [List.replicate (4 + p.sk_bytes) none, List.replicate (4 + q.sk_bytes) none, List.replicate 10005 none,
      [1, 2, 3, 4, 5].map some, List.replicate (4 + p.pk_bytes) none, List.replicate (4 + q.pk_bytes) none]
    ∃ es : List Event, es.length = 5 ∧ Program P slots m (fun _ => none) es ∧ (∀ s ∈ slots, s.Good) ∧ Separate slots := by
  intro slots hh m
  have hg : ∀ s ∈ slots, s.Good := by
    intro s hs
    simp only [slots, List.mem_cons, List.not_mem_nil, or_false] at hs
    rcases hs with rfl | rfl
    · exact ⟨hp, hk⟩
    · exact ⟨hq, hl⟩
  have hsep : Separate slots := by
    intro t t' s s' hne h h'
    match t, t', hne with
    | 0, 1, _ => simp only [slots] at h h'; cases h; cases h'; exact apart_blk (by decide)
    | 1, 0, _ => simp only [slots] at h h'; cases h; cases h'; exact apart_blk (by decide)
    | 0, 0, hne => exact absurd rfl hne
    | 1, 1, hne => exact absurd rfl hne
    | _ + 2, _, _ => simp [slots] at h
    | _, _ + 2, _ => simp [slots] at h'
  obtain ⟨es, h1, _, h3⟩ := C88_program_instance (P := P) slots hg hh hsep (fun t => ⟨4 + t, 0⟩) ⟨2, 0⟩ ⟨3, 0⟩ [1, 2, 3, 4, 5] 10005 (by
      intro s hs
      simp only [slots, List.mem_cons, List.not_mem_nil, or_false] at hs
      rcases hs with rfl | rfl
      · exact Nat.add_le_add_right hps 5
      · exact Nat.add_le_add_right hqs 5) (by norm_num) (by
      intro s hs
      simp only [slots, List.mem_cons, List.not_mem_nil, or_false] at hs
      rcases hs with rfl | rfl
      · exact apart_blk (by decide)
      · exact apart_blk (by decide)) (apart_blk (by decide)) (by
      intro s hs
      simp only [slots, List.mem_cons, List.not_mem_nil, or_false] at hs
      rcases hs with rfl | rfl
      · exact apart_blk (by decide)
      · exact apart_blk (by decide)) (by
      intro t s h
      match t with
      | 0 => exact apart_blk (by decide)
      | 1 => exact apart_blk (by decide)
      | _ + 2 => simp [slots] at h) (by
      intro t s h s' h'
      simp only [slots, List.mem_cons, List.not_mem_nil, or_false] at h'
      match t with
      | 0 => rcases h' with rfl | rfl <;> exact apart_blk (by decide)
      | 1 => rcases h' with rfl | rfl <;> exact apart_blk (by decide)
      | _ + 2 => simp [slots] at h) [(true, 0), (false, 0), (true, 1), (false, 1), (false, 0)] m _ (live_none slots m)
      (room_fresh rfl List.length_replicate) (holds_block rfl) (by
      intro t s h
      match t with
      | 0 => simp only [slots] at h; cases h; exact ⟨room_fresh rfl List.length_replicate, room_fresh rfl List.length_replicate⟩
      | 1 => simp only [slots] at h; cases h; exact ⟨room_fresh rfl List.length_replicate, room_fresh rfl List.length_replicate⟩
      | _ + 2 => simp [slots] at h) (by
      have e10 : (2 : Nat) ^ 10 - 1 = 1023 := by norm_num
      have e20 : (2 : Nat) ^ 20 - 1 = 1048575 := by norm_num
      refine ⟨⟨_, rfl, ?_⟩, ⟨_, rfl, ?_⟩, ⟨_, rfl, ?_⟩, ⟨_, rfl, ?_⟩, ⟨_, rfl, ?_⟩, trivial⟩ <;> simp [hpf, hqf])
  exact ⟨es, h1, h3, hg, hsep⟩

/-- The hypotheses of a verification hold for every key, every signature and every message, before the key is made (in this
program) and afterwards, with buffers that are separate objects. -/
example (P : Prims) (s : Slot) (hsk : s.sk = ⟨0, 0⟩) (sig M : Bytes) (hs : sig.length = s.p.sig_bytes) (h : s.p.sig_bytes + M.length < 2 ^ 64)
    (idx : Nat → Option Nat) (skb : Block) :
    (Event.verify ⟨0, [skb, (s.k.pk s.oid).map some, (sig ++ M).map some, List.replicate (s.p.sig_bytes + M.length) none], ⟨1, 0⟩, ⟨2, 0⟩,
      ⟨3, 0⟩, 0, sig, M⟩).Ok P [s] idx := by
  refine ⟨s, rfl, holds_block rfl, holds_block rfl, hs, room_fresh rfl (by simp), apart_blk (by decide), apart_blk (by decide), ?_, h⟩
  intro t' s' h' _
  match t' with
  | 0 => obtain rfl := Option.some.inj h'; rw [hsk]; exact apart_blk (by decide)
  | _ + 1 => simp at h'

/-- There is an honest key for every slot. -/
theorem honest_exists (f : Family) (oid : Nat) (p : Params) (hp : f.parse oid = some p) (sk : Ptr) (a b c : Bytes) (ha : a.length = p.n)
    (hb : b.length = p.n) (hc : c.length = p.n) : ∃ k : Key, k.skSeed = a ∧ k.skPrf = b ∧ k.pubSeed = c ∧
      (Slot.mk f oid p k sk).HonestKey P ∧ (Slot.mk f oid p k sk).Good := by
  obtain ⟨g, _, _, H, hH⟩ := Family.facts (P := P) hp
  have hHl := Family.hash_length hp hH
  exact ⟨⟨a, b, (suiteOf p H).root a c, c⟩, rfl, rfl, rfl, ⟨H, hH, rfl⟩, hp, ha, hb, treeRoot_length g hHl _ _ _ _, hc⟩

/-! ### The fast build -/

/-- **C88 (one more key, fast build).**  A program that has keys made by fast key generation makes another one, in buffers that overlap
neither each other nor the keys it has; the secret-key buffer is initialised (see C38), with anything.  Key generation returns 0; then the program has
all these keys, as `C88_many_keys_fast` wants them. -/
theorem C88_keygen_fast (slots : List Slot) (hsep : Separate slots) (key : Nat → Bytes)
    (hgen : ∀ t s, slots[t]? = some s → Generated P s (key t)) (m : Mem) (hk : KeysFast slots key m)
    (f : Family) (oid : Nat) (p : Params) (hp : f.parseFast oid = some p) (pk sk : Ptr) (sk0 : Bytes) (hskl : sk0.length = 4 + p.sk_bytes)
    (hpk : Room m pk (4 + p.pk_bytes)) (hsk : Holds m sk sk0) (hd : Apart pk (4 + p.pk_bytes) sk (4 + p.sk_bytes))
    (hap : ∀ s ∈ slots, Apart s.sk (4 + s.p.sk_bytes) pk (4 + p.pk_bytes) ∧ Apart s.sk (4 + s.p.sk_bytes) sk (4 + p.sk_bytes))
    (seed : Nat → Bytes) (hs : (seed p.n).length = 3 * p.n) :
    ∃ (k : Key) (sk' : Bytes) (m' : Mem), k.skSeed ++ k.skPrf ++ k.pubSeed = seed p.n ∧
      apiKeypairFastL P f m pk sk oid (fun q => seed q.n) = some (0, m') ∧ Holds m' pk (k.pk oid) ∧
      (Slot.mk f oid p k sk).HonestKey P ∧ Separate (slots ++ [⟨f, oid, p, k, sk⟩]) ∧
      KeysFast (slots ++ [⟨f, oid, p, k, sk⟩]) (fun t => if t = slots.length then sk' else key t) m' ∧
      (∀ t s, (slots ++ [⟨f, oid, p, k, sk⟩])[t]? = some s → Generated P s (if t = slots.length then sk' else key t)) ∧
      OnlyIn m m' [(pk, 4 + p.pk_bytes), (sk, 4 + p.sk_bytes)] := by
  obtain ⟨g, hskb, _⟩ := parseFast_good hp
  obtain ⟨H, hH, hHl⟩ := Family.hashFast (P := P) hp
  have l4 : (Rfc.toByte oid 4).length = 4 := toByte_length _ _
  obtain ⟨k, hv, hh, hsd, sk1, hsk1, e, _⟩ := fast_history (P := P) hp hH (List.replicate (4 + p.pk_bytes) 0) sk0 (by simp) hskl seed hs
  obtain ⟨m', e1, e2, e3, e4, e5⟩ := C84_keypair (P := P) hp m pk sk sk0 hskl hpk hsk (by rw [hskl]; exact hd) seed hs
    (List.replicate (4 + p.pk_bytes) 0) (by simp) _ _ _ e
  rw [hskl] at e4
  set s : Slot := ⟨f, oid, p, k, sk⟩ with hsdef
  have split : ∀ t s', (slots ++ [s])[t]? = some s' → (t ≠ slots.length ∧ slots[t]? = some s') ∨ (t = slots.length ∧ s' = s) := by
    intro t s' h
    by_cases ht : t < slots.length
    · rw [List.getElem?_append_left ht] at h
      exact Or.inl ⟨by omega, h⟩
    · rw [List.getElem?_append_right (by omega)] at h
      obtain ⟨h1, h2⟩ := List.getElem?_eq_some_iff.mp h
      simp only [List.length_singleton] at h1
      exact Or.inr ⟨by omega, by simpa using h2.symm⟩
  refine ⟨k, Rfc.toByte oid 4 ++ sk1, m', hsd.symm, e1, e2, ⟨H, hH, hh⟩, ?_, ?_, ?_, e4⟩
  · intro t t' s1 s2 hne h1 h2
    rcases split _ _ h1 with ⟨_, h1⟩ | ⟨a1, rfl⟩ <;> rcases split _ _ h2 with ⟨_, h2⟩ | ⟨a2, rfl⟩
    · exact hsep _ _ _ _ hne h1 h2
    · exact (hap _ (List.mem_of_getElem? h1)).2
    · exact Disj.symm (hap _ (List.mem_of_getElem? h2)).2
    · omega
  · intro t s1 h1
    rcases split _ _ h1 with ⟨a1, h1⟩ | ⟨a1, rfl⟩
    · simp only [if_neg a1]
      obtain ⟨b1, b2, b3, b4⟩ := hk t s1 h1
      refine ⟨b1.keep e4 ?_, b2, b3, b4⟩
      intro r hr
      rw [b2]
      simp only [List.mem_cons, List.not_mem_nil, or_false] at hr
      rcases hr with rfl | rfl
      · exact (hap _ (List.mem_of_getElem? h1)).1
      · exact (hap _ (List.mem_of_getElem? h1)).2
    · simp only [if_pos a1]
      refine ⟨e3, ?_, ?_, e5⟩
      · simp only [List.length_append, l4, hsk1, hsdef]
      · rw [List.take_left' l4]
  · intro t s1 h1
    rcases split _ _ h1 with ⟨a1, h1⟩ | ⟨a1, rfl⟩
    · rw [if_neg a1]; exact hgen t s1 h1
    · rw [if_pos a1]
      exact ⟨_, sk0, seed, by simp [hsdef], hskl, hs, e, hsd, hv⟩

/-- The hypotheses hold for a program without keys and buffers of zeros. -/
example (f : Family) (oid : Nat) (p : Params) (hp : f.parseFast oid = some p) (seed : Bytes) (hs : seed.length = 3 * p.n) :
    ∃ (k : Key) (sk' : Bytes) (m' : Mem), apiKeypairFastL P f [(List.replicate (4 + p.pk_bytes) 0).map some,
      (List.replicate (4 + p.sk_bytes) 0).map some] ⟨0, 0⟩ ⟨1, 0⟩ oid (fun _ => seed) = some (0, m') ∧
      KeysFast [⟨f, oid, p, k, ⟨1, 0⟩⟩] (fun t => if t = 0 then sk' else []) m' := by
  obtain ⟨k, sk', m', _, h2, _, _, _, h6, _⟩ := C88_keygen_fast (P := P) [] (by intro _ _ _ _ _ h; simp at h) (fun _ => [])
    (by intro _ _ h; simp at h) [(List.replicate (4 + p.pk_bytes) 0).map some, (List.replicate (4 + p.sk_bytes) 0).map some]
    (by intro _ _ h; simp at h) f oid p hp ⟨0, 0⟩ ⟨1, 0⟩ (List.replicate (4 + p.sk_bytes) 0) (by simp)
    (room_fresh rfl (by simp)) (holds_block rfl) (apart_blk (by decide)) (by intro _ h; simp at h) (fun _ => seed) hs
  exact ⟨k, sk', m', h2, h6⟩

end Xmss.Low
