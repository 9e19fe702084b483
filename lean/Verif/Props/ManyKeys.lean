import Verif.Props.LowUse
import Verif.Props.LowUi
import Verif.Props.Ui
/-
C88: one program, several keys.  Calls with different keys, in any order, do not disturb each other.
-/
namespace Xmss.Low

variable {P : Prims}

/-- A key of the program: its family, OID, parameters, the key itself, and where its secret-key buffer is. -/
structure Slot where
  f : Family
  oid : Nat
  p : Params
  k : Key
  sk : Ptr

/-- The slot is what it says it is. -/
structure Slot.Good (s : Slot) : Prop where
  parse : s.f.parse s.oid = some s.p
  valid : s.k.Valid s.p

/-- One sign call of the program: with which key, memory before it and the arguments. -/
structure KeyCall where
  who : Nat
  before : Mem
  sm : Ptr
  smlen0 : Nat
  msg : Ptr
  M : Bytes

/-- What the call does, in the simple build. -/
def runSimple (P : Prims) (s : Slot) (c : KeyCall) : Option (Int × Nat × Mem) :=
  apiSign P s.f.parse c.before s.sk c.sm c.smlen0 c.msg c.M.length

/-- The call is made with proper buffers: room for the signed message, not overlapping any key of the program, and a message
not overlapping the place of its copy.  Different calls may use the same buffers. -/
def KeyCall.Ok (slots : List Slot) (c : KeyCall) : Prop :=
  ∃ s, slots[c.who]? = some s ∧ Room c.before c.sm (s.p.sig_bytes + c.M.length) ∧ Holds c.before c.msg c.M ∧
    (∀ s' ∈ slots, Apart s'.sk (4 + s'.p.sk_bytes) c.sm (s.p.sig_bytes + c.M.length)) ∧
    Apart c.msg c.M.length (c.sm + s.p.sig_bytes) c.M.length ∧ s.p.sig_bytes + c.M.length < 2 ^ 64

/-- Between the calls the program may change memory in any way, except for the secret-key buffers.  `run` says what a call does. -/
def Undisturbed (run : Slot → KeyCall → Option (Int × Nat × Mem)) (slots : List Slot) : Mem → List KeyCall → Prop
  | _, [] => True
  | m, c :: cs => (∀ s ∈ slots, ∀ x : Bytes, x.length = 4 + s.p.sk_bytes → Holds m s.sk x → Holds c.before s.sk x) ∧
      ∀ s r l m', slots[c.who]? = some s → run s c = some (r, l, m') → Undisturbed run slots m' cs

/-- The number of calls with key `t`. -/
def uses (t : Nat) (cs : List KeyCall) : Nat := (cs.filter fun c => c.who == t).length

theorem uses_cons (t : Nat) (c : KeyCall) (cs : List KeyCall) : uses t (c :: cs) = (if c.who = t then 1 else 0) + uses t cs := by
  unfold uses
  rw [List.filter_cons]
  by_cases h : c.who = t
  · simp [h]; omega
  · simp [h]

/-- The secret-key buffers do not overlap. -/
def Separate (slots : List Slot) : Prop := ∀ (t t' : Nat) (s s' : Slot), t ≠ t' → slots[t]? = some s → slots[t']? = some s' →
  Apart s.sk (4 + s.p.sk_bytes) s'.sk (4 + s'.p.sk_bytes)

/-- Memory holds every key with the given indices. -/
def Keys (slots : List Slot) (idx : Nat → Nat) (m : Mem) : Prop :=
  ∀ (t : Nat) (s : Slot), slots[t]? = some s → Holds m s.sk (s.k.sk s.p s.oid (idx t))

/-- **C88 (several keys in one program).**  A program has any number of keys, of both families and any parameter sets, in separate buffers.
It signs with them in any order, reusing message and output buffers as it likes and changing the rest of memory as it likes.  As long as no key is used up, every call is
defined, returns 0 and the signature that RFC 8391 prescribes for its own key with the index that key has by its own earlier
calls; it leaves that key with the next index and every other key as it was, and writes nothing but the index of its key
and the signed message. -/
theorem C88_many_keys (slots : List Slot) (hg : ∀ s ∈ slots, s.Good) (hsep : Separate slots) :
    ∀ (cs : List KeyCall) (m : Mem) (idx : Nat → Nat), Keys slots idx m → (∀ c ∈ cs, c.Ok slots) → Undisturbed (runSimple P) slots m cs →
    (∀ t s, slots[t]? = some s → idx t + uses t cs ≤ 2 ^ s.p.full_height - 1) →
    ∀ j c, cs[j]? = some c → ∃ s H m', slots[c.who]? = some s ∧ Xmss.coreHash P s.p.func s.p.n = some H ∧
      runSimple P s c = some (0, s.p.sig_bytes + c.M.length, m') ∧
      Holds m' c.sm ((suiteOf s.p H).sign s.k.skSeed s.k.skPrf s.k.root s.k.pubSeed (idx c.who + uses c.who (cs.take j)) c.M ++ c.M) ∧
      Keys slots (fun t => idx t + uses t (cs.take (j + 1))) m' ∧
      OnlyIn c.before m' [(s.sk + 4, s.p.index_bytes), (c.sm, s.p.sig_bytes + c.M.length)]
  | [], _, _, _, _, _, _ => by intro j c h; simp at h
  | c :: cs, m, idx, hk, hok, ⟨hu1, hu2⟩, hcap => by
    obtain ⟨s, hs, hr, hM, hap, hdm, hlen⟩ := hok c (by simp)
    have hsm : s ∈ slots := List.mem_of_getElem? hs
    obtain ⟨hp, hv⟩ := hg s hsm
    obtain ⟨g, hskb, ho, H, hH⟩ := Family.facts (P := P) hp
    have hHl := Family.hash_length hp hH
    have hcap0 := hcap _ _ hs
    rw [uses_cons, if_pos rfl] at hcap0
    have hif := g.idx_fits
    have hkl : ∀ s' ∈ slots, ∀ i, (s'.k.sk s'.p s'.oid i).length = 4 + s'.p.sk_bytes := by
      intro s' h' i
      obtain ⟨hp', hv'⟩ := hg s' h'
      obtain ⟨_, hskb', _⟩ := Family.facts (P := P) hp'
      exact Key.sk_length hv' hskb' _ _
    have hkb : Keys slots idx c.before := fun t s' h' =>
      hu1 s' (List.mem_of_getElem? h') _ (hkl _ (List.mem_of_getElem? h') _) (hk t s' h')
    obtain ⟨m', e1, e2, e3, e4, _⟩ := C83_sign (P := P) hp hH s.k hv (idx c.who) (by omega) c.before s.sk c.sm c.msg c.smlen0 c.M
      (hkb _ _ hs) hr hM (hap s hsm) hdm hlen
    rw [if_pos (by omega)] at e1
    obtain ⟨e5, e6⟩ := e4 (by omega)
    rw [nextKey, if_pos (by omega), nextIdx, if_pos (by omega)] at e2
    have hrun : runSimple P s c = some (0, s.p.sig_bytes + c.M.length, m') := e1
    have hk' : Keys slots (fun t => idx t + if c.who = t then 1 else 0) m' := by
      intro t s' h'
      by_cases ht : c.who = t
      · subst ht
        rw [hs] at h'
        obtain rfl := Option.some.inj h'
        simpa using e2
      · simp only [if_neg ht, Nat.add_zero]
        refine (hkb t s' h').keep e6 ?_
        intro r hr'
        rw [hkl _ (List.mem_of_getElem? h')]
        simp only [List.mem_cons, List.not_mem_nil, or_false] at hr'
        rcases hr' with rfl | rfl
        · have hsp := hsep _ _ _ _ (Ne.symm ht) h' hs
          exact Disj.sub hsp 4 _ (by rw [hskb]; omega)
        · exact hap s' (List.mem_of_getElem? h')
    intro j c' hj
    cases j with
    | zero =>
      obtain rfl : c = c' := by simpa using hj
      refine ⟨s, H, m', hs, hH, hrun, ?_, ?_, e6⟩
      · have := e5.append (y := c.M) (by rw [sign_length g hHl]; exact e3)
        simpa [uses] using this
      · have : (fun t => idx t + uses t (List.take (0 + 1) (c :: cs))) = fun t => idx t + if c.who = t then 1 else 0 := by
          funext t
          simp only [Nat.zero_add, List.take_succ_cons, List.take_zero, uses_cons]
          rfl
        rw [this]
        exact hk'
    | succ j =>
      have ih := C88_many_keys slots hg hsep cs m' _ hk' (fun x hx => hok x (by simp [hx])) (hu2 _ _ _ _ hs hrun)
        (fun t s' h' => by
          have := hcap t s' h'
          rw [uses_cons] at this
          omega) j c' (by simpa using hj)
      obtain ⟨s2, H2, m2, a1, a2, a3, a4, a5, a6⟩ := ih
      refine ⟨s2, H2, m2, a1, a2, a3, ?_, ?_, a6⟩
      · rw [List.take_succ_cons, uses_cons, ← Nat.add_assoc]
        exact a4
      · have : (fun t => idx t + uses t (List.take (j + 1 + 1) (c :: cs))) =
            fun t => (idx t + if c.who = t then 1 else 0) + uses t (cs.take (j + 1)) := by
          funext t
          rw [List.take_succ_cons, uses_cons, Nat.add_assoc]
        rw [this]
        exact a5

/-- There are such programs: with one message and one output buffer for all calls, the keys can be used in any order `ws`. -/
theorem C88_instance (slots : List Slot) (hg : ∀ s ∈ slots, s.Good) (hsep : Separate slots) (sm msg : Ptr) (M : Bytes) (N : Nat)
    (hN : ∀ s ∈ slots, s.p.sig_bytes + M.length ≤ N) (h64 : N < 2 ^ 64) (hap : ∀ s ∈ slots, Apart s.sk (4 + s.p.sk_bytes) sm N)
    (hmk : ∀ s ∈ slots, Apart msg M.length s.sk (4 + s.p.sk_bytes)) (hms : Apart msg M.length sm N) :
    ∀ (ws : List Nat) (m : Mem) (idx : Nat → Nat), Keys slots idx m → Room m sm N → Holds m msg M → (∀ w ∈ ws, w < slots.length) →
    (∀ t s, slots[t]? = some s → idx t + (ws.filter fun w => w == t).length ≤ 2 ^ s.p.full_height - 1) →
    ∃ cs : List KeyCall, cs.map (·.who) = ws ∧ (∀ c ∈ cs, c.Ok slots) ∧ Undisturbed (runSimple P) slots m cs
  | [], _, _, _, _, _, _, _ => ⟨[], rfl, by simp, trivial⟩
  | w :: ws, m, idx, hk, hr, hM, hw, hcap => by
    obtain ⟨s, hs⟩ : ∃ s, slots[w]? = some s := ⟨_, List.getElem?_eq_getElem (hw w (by simp))⟩
    have hmem := List.mem_of_getElem? hs
    have hsN := hN s hmem
    have hap' : ∀ s' ∈ slots, Apart s'.sk (4 + s'.p.sk_bytes) sm (s.p.sig_bytes + M.length) :=
      fun s' h' => Disj.mono (hap s' h') (Nat.le_refl _) hsN
    have hdm : Apart msg M.length (sm + s.p.sig_bytes) M.length := Disj.sub hms s.p.sig_bytes _ hsN
    let c : KeyCall := ⟨w, m, sm, 0, msg, M⟩
    have hok : c.Ok slots := ⟨s, hs, hr.imp fun o h => ⟨h.1, le_trans (Nat.add_le_add_left hsN _) h.2⟩, hM, hap', hdm, lt_of_le_of_lt hsN h64⟩
    obtain ⟨s2, H, m', a1, _, a3, _, a5, a6⟩ := C88_many_keys (P := P) slots hg hsep [c] m idx hk (by simpa using hok)
      ⟨fun _ _ _ _ h => h, fun _ _ _ _ _ _ => trivial⟩ (by
        intro t s' h'
        have := hcap t s' h'
        rw [List.filter_cons] at this
        rw [uses_cons]
        by_cases ht : w = t
        · have hc : c.who = t := ht
          rw [if_pos (by simp [ht])] at this
          rw [if_pos hc]
          simp only [List.length_cons, uses, List.filter_nil, List.length_nil] at this ⊢
          omega
        · have hc : ¬ c.who = t := ht
          rw [if_neg hc]
          simp only [uses, List.filter_nil, List.length_nil]
          omega) 0 c rfl
    have hs2 : slots[w]? = some s2 := a1
    rw [hs] at hs2
    obtain rfl := Option.some.inj hs2
    have hkl : s.p.index_bytes ≤ s.p.sk_bytes := by
      obtain ⟨_, hskb, _⟩ := Family.facts (P := P) (hg s hmem).parse
      omega
    obtain ⟨cs, b1, b2, b3⟩ := C88_instance slots hg hsep sm msg M N hN h64 hap hmk hms ws m'
      (fun t => idx t + uses t ([c].take (0 + 1))) a5 (hr.keep a6) (hM.keep a6 (by
        intro r hr'
        simp only [List.mem_cons, List.not_mem_nil, or_false] at hr'
        rcases hr' with rfl | rfl
        · exact Disj.sub (hmk s hmem) 4 _ (by omega)
        · exact Disj.mono hms (Nat.le_refl _) hsN)) (fun x hx => hw x (by simp [hx])) (by
        intro t s' h'
        have := hcap t s' h'
        rw [List.filter_cons] at this
        show idx t + uses t [c] + _ ≤ _
        rw [uses_cons]
        by_cases ht : w = t
        · have hc : c.who = t := ht
          rw [if_pos (by simp [ht])] at this
          rw [if_pos hc]
          simp only [List.length_cons, uses, List.filter_nil, List.length_nil] at this ⊢
          omega
        · have hc : ¬ c.who = t := ht
          rw [if_neg (by simp [ht])] at this
          rw [if_neg hc]
          simp only [uses, List.filter_nil, List.length_nil]
          omega)
    refine ⟨c :: cs, by rw [List.map_cons, b1], ?_, fun _ _ _ _ h => h, ?_⟩
    · intro x hx
      rcases List.mem_cons.mp hx with rfl | hx
      · exact hok
      · exact b2 x hx
    · intro s3 r l m3 h3 hrun
      have h3 : slots[w]? = some s3 := h3
      rw [hs] at h3
      obtain rfl := Option.some.inj h3
      rw [a3] at hrun
      simp only [Option.some.injEq, Prod.mk.injEq] at hrun
      obtain ⟨_, _, rfl⟩ := hrun
      exact b3

/-- An XMSS key (OID 1) and an XMSSMT key (OID 1) used in the order 0, 1, 1, 0, with one message and one output buffer: the
hypotheses of `C88_many_keys` hold, for any two valid keys. -/
example (P : Prims) (p q : Params) (hp : Family.xmss.parse 1 = some p) (hq : Family.xmssmt.parse 1 = some q) (k l : Key)
    (hk : k.Valid p) (hl : l.Valid q) (hpf : p.full_height = 10) (hqf : q.full_height = 20) (hps : p.sig_bytes ≤ 10000)
    (hqs : q.sig_bytes ≤ 10000) :
    let slots : List Slot := [⟨.xmss, 1, p, k, ⟨0, 0⟩⟩, ⟨.xmssmt, 1, q, l, ⟨1, 0⟩⟩]
    let m : Mem := [(k.sk p 1 0).map some, (l.sk q 1 7).map some, List.replicate 10005 none, [1, 2, 3, 4, 5].map some]
    ∃ cs : List KeyCall, cs.map (·.who) = [0, 1, 1, 0] ∧ (∀ c ∈ cs, c.Ok slots) ∧ Undisturbed (runSimple P) slots m cs ∧
      Keys slots (fun t => if t = 0 then 0 else 7) m ∧ (∀ s ∈ slots, s.Good) ∧ Separate slots := by
  intro slots m
  have hg : ∀ s ∈ slots, s.Good := by
    intro s hs
    simp only [slots, List.mem_cons, List.not_mem_nil, or_false] at hs
    rcases hs with rfl | rfl
    · exact ⟨hp, hk⟩
    · exact ⟨hq, hl⟩
  have hsep : Separate slots := by
    intro t t' s s' hne h h'
    match t, t', hne with
    | 0, 1, _ => simp only [slots] at h h'; cases h; cases h'; exact apart_blk (by decide)
    | 1, 0, _ => simp only [slots] at h h'; cases h; cases h'; exact apart_blk (by decide)
    | 0, 0, hne => exact absurd rfl hne
    | 1, 1, hne => exact absurd rfl hne
    | _ + 2, _, _ => simp [slots] at h
    | _, _ + 2, _ => simp [slots] at h'
  have hkeys : Keys slots (fun t => if t = 0 then 0 else 7) m := by
    intro t s h
    match t with
    | 0 => simp only [slots] at h; cases h; exact holds_block rfl
    | 1 => simp only [slots] at h; cases h; exact holds_block rfl
    | _ + 2 => simp [slots] at h
  obtain ⟨cs, h1, h2, h3⟩ := C88_instance (P := P) slots hg hsep ⟨2, 0⟩ ⟨3, 0⟩ [1, 2, 3, 4, 5] 10005 (by
      intro s hs
      simp only [slots, List.mem_cons, List.not_mem_nil, or_false] at hs
      rcases hs with rfl | rfl
      · exact Nat.add_le_add_right hps 5
      · exact Nat.add_le_add_right hqs 5) (by norm_num) (by
      intro s hs
      simp only [slots, List.mem_cons, List.not_mem_nil, or_false] at hs
      rcases hs with rfl | rfl
      · exact apart_blk (by decide)
      · exact apart_blk (by decide)) (by
      intro s hs
      simp only [slots, List.mem_cons, List.not_mem_nil, or_false] at hs
      rcases hs with rfl | rfl
      · exact apart_blk (by decide)
      · exact apart_blk (by decide)) (apart_blk (by decide)) [0, 1, 1, 0] m _ hkeys
      (room_fresh rfl List.length_replicate) (holds_block rfl) (by simp [slots]) (by
      intro t s h
      match t with
      | 0 => simp only [slots] at h; cases h; show 0 + 2 ≤ 2 ^ p.full_height - 1; rw [hpf]; norm_num
      | 1 => simp only [slots] at h; cases h; show 7 + 2 ≤ 2 ^ q.full_height - 1; rw [hqf]; norm_num
      | _ + 2 => simp [slots] at h)
  exact ⟨cs, h1, h2, h3, hkeys, hg, hsep⟩
example : ∃ p q, Family.xmss.parse 1 = some p ∧ Family.xmssmt.parse 1 = some q ∧ p.full_height = 10 ∧ q.full_height = 20 ∧
    p.sig_bytes ≤ 10000 ∧ q.sig_bytes ≤ 10000 := ⟨_, _, rfl, rfl, rfl, rfl, by decide +kernel, by decide +kernel⟩

/-! ### The fast build -/

/-- What the call does, in the fast build. -/
def runFast (P : Prims) (s : Slot) (c : KeyCall) : Option (Int × Nat × Mem) :=
  apiSignFastL P s.f c.before s.sk c.sm c.smlen0 c.msg c.M.length

/-- The call is made with proper buffers (fast build): the message overlaps neither the output buffer nor its own key. -/
def KeyCall.OkFast (slots : List Slot) (c : KeyCall) : Prop :=
  ∃ s, slots[c.who]? = some s ∧ Room c.before c.sm (s.p.sig_bytes + c.M.length) ∧ Holds c.before c.msg c.M ∧
    (∀ s' ∈ slots, Apart s'.sk (4 + s'.p.sk_bytes) c.sm (s.p.sig_bytes + c.M.length)) ∧
    Apart c.msg c.M.length c.sm (s.p.sig_bytes + c.M.length) ∧ Apart c.msg c.M.length s.sk (4 + s.p.sk_bytes) ∧
    s.p.sig_bytes + c.M.length < 2 ^ 64

/-- The calls with key `t`, as calls of the first model (with an output buffer of zeros). -/
def callsOf (slots : List Slot) (t : Nat) (cs : List KeyCall) : List Call :=
  (cs.filter fun c => c.who == t).map fun c =>
    ⟨List.replicate ((slots[t]?.map fun s => s.p.sig_bytes).getD 0 + c.M.length) 0, c.smlen0, c.M⟩

theorem callsOf_cons (slots : List Slot) (t : Nat) (c : KeyCall) (cs : List KeyCall) : callsOf slots t (c :: cs) =
    if c.who = t then ⟨List.replicate ((slots[t]?.map fun s => s.p.sig_bytes).getD 0 + c.M.length) 0, c.smlen0, c.M⟩ :: callsOf slots t cs
    else callsOf slots t cs := by
  unfold callsOf
  rw [List.filter_cons]
  by_cases h : c.who = t <;> simp [h]

/-- Memory holds every key; the bytes are proper keys of the fast build. -/
def KeysFast (slots : List Slot) (key : Nat → Bytes) (m : Mem) : Prop :=
  ∀ (t : Nat) (s : Slot), slots[t]? = some s → Holds m s.sk (key t) ∧ (key t).length = 4 + s.p.sk_bytes ∧
    (key t).take 4 = Rfc.toByte s.oid 4 ∧ (s.f = .xmssmt → Counted s.p ((key t).drop 4))

/-- Several keys in the fast build, for any key bytes: what the first model says of the calls with one key alone is what they
do among the calls with other keys. -/
theorem C88_many_keys_fast_refines (slots : List Slot) (hg : ∀ s ∈ slots, s.f.parseFast s.oid = some s.p) (hsep : Separate slots) :
    ∀ (cs : List KeyCall) (m : Mem) (key : Nat → Bytes) (outs : Nat → List FastOut), KeysFast slots key m → (∀ c ∈ cs, c.OkFast slots) →
    Undisturbed (runFast P) slots m cs →
    (∀ t s, slots[t]? = some s → signAllFast P s.f (key t) (callsOf slots t cs) = some (outs t)) →
    ∀ j c, cs[j]? = some c → ∃ s o m', slots[c.who]? = some s ∧ (outs c.who)[uses c.who (cs.take j)]? = some o ∧
      runFast P s c = some (o.ret, o.smlen, m') ∧ Holds m' s.sk o.sk ∧
      (o.ret = 0 → Holds m' c.sm (o.sm.take (s.p.sig_bytes + c.M.length)))
  | [], _, _, _, _, _, _, _ => by intro j c h; simp at h
  | c :: cs, m, key, outs, hk, hok, ⟨hu1, hu2⟩, hout => by
    obtain ⟨s, hs, hr, hM, hap, hd2, hd3, hlen⟩ := hok c (by simp)
    have hsm : s ∈ slots := List.mem_of_getElem? hs
    have hp := hg s hsm
    obtain ⟨g, hskb, _⟩ := parseFast_good hp
    obtain ⟨hk1, hk2, hk3, hk4⟩ := hk _ _ hs
    have h0 := hout _ _ hs
    rw [callsOf_cons, if_pos rfl, signAllFast] at h0
    simp only [Option.bind_eq_bind] at h0
    obtain ⟨o, e1, h0⟩ := Option.bind_eq_some_iff.mp h0
    obtain ⟨os, e2, h0⟩ := Option.bind_eq_some_iff.mp h0
    have h0 := (Option.some.inj h0).symm
    rw [hs, Option.map_some, Option.getD_some] at e1
    obtain ⟨m', r1, r2, r3, r4, r5, r6, r7⟩ := C84_sign_uninitialised (P := P) hp c.before s.sk c.sm c.msg c.smlen0 (key c.who)
      (List.replicate (s.p.sig_bytes + c.M.length) 0) c.M o hk2 hk3 (by simp) hk4 e1 (hu1 s hsm _ hk2 hk1) hr hM
      (by rw [hk2]; exact hap s hsm) hd2 (by rw [hk2]; exact hd3) hlen
    have hrun : runFast P s c = some (o.ret, o.smlen, m') := r1
    have hO : OnlyIn c.before m' [(s.sk + 4, s.p.sk_bytes), (c.sm, s.p.sig_bytes + c.M.length)] := by
      by_cases h : o.ret = 0
      · exact (r5 h).2.2
      · exact (r6 h).2.mono fun x i h => by rw [within_cons]; exact Or.inl (within_one.mp h)
    set key' : Nat → Bytes := fun t => if c.who = t then o.sk else key t with hkey'
    set outs' : Nat → List FastOut := fun t => if c.who = t then os else outs t with houts'
    have hk' : KeysFast slots key' m' := by
      intro t s' h'
      by_cases ht : c.who = t
      · subst ht
        rw [hs] at h'
        obtain rfl := Option.some.inj h'
        rw [hkey']
        simp only [if_true]
        exact ⟨r2, by rw [r3, hk2], r4, r7⟩
      · rw [hkey']
        simp only [if_neg ht]
        obtain ⟨a1, a2, a3, a4⟩ := hk t s' h'
        have hmem := List.mem_of_getElem? h'
        refine ⟨(hu1 s' hmem _ a2 a1).keep hO ?_, a2, a3, a4⟩
        intro r hr'
        rw [a2]
        simp only [List.mem_cons, List.not_mem_nil, or_false] at hr'
        rcases hr' with rfl | rfl
        · exact Disj.sub (hsep _ _ _ _ (Ne.symm ht) h' hs) 4 _ (Nat.le_refl _)
        · exact hap s' hmem
    have hout' : ∀ t s, slots[t]? = some s → signAllFast P s.f (key' t) (callsOf slots t cs) = some (outs' t) := by
      intro t s' h'
      by_cases ht : c.who = t
      · subst ht
        rw [hs] at h'
        obtain rfl := Option.some.inj h'
        simp only [hkey', houts', if_true]
        exact e2
      · have := hout t s' h'
        rw [callsOf_cons, if_neg ht] at this
        simp only [hkey', houts', if_neg ht]
        exact this
    intro j c' hj
    cases j with
    | zero =>
      obtain rfl : c = c' := by simpa using hj
      exact ⟨s, o, m', hs, by rw [h0]; rfl, hrun, r2, fun h => (r5 h).1⟩
    | succ j =>
      obtain ⟨s2, o2, m2, a1, a2, a3, a4, a5⟩ := C88_many_keys_fast_refines slots hg hsep cs m' key' outs' hk'
        (fun x hx => hok x (by simp [hx])) (hu2 _ _ _ _ hs hrun) hout' j c' (by simpa using hj)
      refine ⟨s2, o2, m2, a1, ?_, a3, a4, a5⟩
      rw [List.take_succ_cons, uses_cons]
      by_cases ht : c.who = c'.who
      · rw [if_pos ht, Nat.add_comm, ← ht, h0, List.getElem?_cons_succ]
        simp only [houts', ← ht, if_true] at a2
        exact a2
      · rw [if_neg ht, Nat.zero_add]
        simp only [houts', if_neg ht] at a2
        exact a2

/-- The fast key generation function makes the key `k` of the slot and the secret-key bytes `key`. -/
def Generated (P : Prims) (s : Slot) (key : Bytes) : Prop :=
  ∃ (pk0 sk0 : Bytes) (seed : Nat → Bytes), pk0.length = 4 + s.p.pk_bytes ∧ sk0.length = 4 + s.p.sk_bytes ∧
    (seed s.p.n).length = 3 * s.p.n ∧ s.f.keypairFast P pk0 sk0 s.oid seed = some (0, s.k.pk s.oid, key) ∧
    seed s.p.n = s.k.skSeed ++ s.k.skPrf ++ s.k.pubSeed ∧ s.k.Valid s.p

/-- **C88 (several keys in one program, fast build).**  As `C88_many_keys`, for keys that the fast key generation function made.  Of
the XMSSMT sets 40/8 and 60/12 the first 2^20 - 1 calls are covered (see C33, C49). -/
theorem C88_many_keys_fast (slots : List Slot) (hg : ∀ s ∈ slots, s.f.parseFast s.oid = some s.p) (hsep : Separate slots)
    (key : Nat → Bytes) (hgen : ∀ t s, slots[t]? = some s → Generated P s (key t)) (cs : List KeyCall) (m : Mem)
    (hk : KeysFast slots key m) (hok : ∀ c ∈ cs, c.OkFast slots) (hu : Undisturbed (runFast P) slots m cs)
    (hcap : ∀ t s, slots[t]? = some s → uses t cs ≤ 2 ^ s.p.full_height - 1 ∧
      (s.p.d ≤ s.p.tree_height / 2 + 2 ∨ uses t cs < 2 ^ (s.p.tree_height * (s.p.tree_height / 2 + 2)))) :
    ∀ j c, cs[j]? = some c → ∃ s H m', slots[c.who]? = some s ∧ Xmss.coreHash P s.p.func s.p.n = some H ∧
      runFast P s c = some (0, s.p.sig_bytes + c.M.length, m') ∧
      Holds m' c.sm ((suiteOf s.p H).sign s.k.skSeed s.k.skPrf s.k.root s.k.pubSeed (uses c.who (cs.take j)) c.M ++ c.M) := by
  have huse : ∀ t, (callsOf slots t cs).length = uses t cs := by intro t; simp [callsOf, uses]
  have hist : ∀ t s, slots[t]? = some s → ∃ (H : Bytes → Bytes) (outs : List FastOut), Xmss.coreHash P s.p.func s.p.n = some H ∧
      signAllFast P s.f (key t) (callsOf slots t cs) = some outs ∧
      ∀ j c, (callsOf slots t cs)[j]? = some c → ∃ o o', outs[j]? = some o ∧ PostFast s.p H s.k j c o' ∧
        o.ret = o'.ret ∧ o.smlen = o'.smlen ∧ o.sm = o'.sm := by
    intro t s hs
    obtain ⟨pk0, sk0, seed, h1, h2, h3, h4, h5, h6⟩ := hgen t s hs
    have hp := hg s (List.mem_of_getElem? hs)
    obtain ⟨H, hH, hHl⟩ := Family.hashFast (P := P) hp
    obtain ⟨k, hv, hh, hsd, sk, hskl, e, hist⟩ := fast_history (P := P) hp hH pk0 sk0 h1 h2 seed h3
    rw [h4] at e
    simp only [Option.some.injEq, Prod.mk.injEq, true_and] at e
    obtain ⟨e1, e2⟩ := e
    have hkk : k = s.k := by
      have ha : (k.skSeed ++ k.skPrf ++ k.pubSeed) = (s.k.skSeed ++ s.k.skPrf ++ s.k.pubSeed) := by rw [← hsd, h5]
      simp only [List.append_assoc] at ha
      obtain ⟨a1, ha⟩ := List.append_inj ha (by rw [hv.skSeed, h6.skSeed])
      obtain ⟨a2, a3⟩ := List.append_inj ha (by rw [hv.skPrf, h6.skPrf])
      have hb := e1
      simp only [Key.pk] at hb
      have hb := List.append_cancel_left hb
      obtain ⟨b1, _⟩ := List.append_inj hb (by rw [hv.root, h6.root])
      cases k; cases hs' : s.k
      simp only [hs'] at a1 a2 a3 b1
      subst a1 a2 a3
      rw [b1]
    subst hkk
    obtain ⟨c1, c2⟩ := hcap t s hs
    obtain ⟨os, o1, o2, o3⟩ := hist (callsOf slots t cs) (by
      intro c hc
      obtain ⟨c0, _, rfl⟩ := List.mem_map.mp hc
      simp [hs]) ⟨fun h40 => by rw [huse]; rw [h40] at c1; exact le_trans c1 (Nat.sub_le _ _), by rw [huse]; exact c2⟩
    refine ⟨H, _, hH, by rw [e2]; exact o1, ?_⟩
    intro j c hc
    obtain ⟨o, ho, hpost⟩ := o3 j c hc
    exact ⟨{ o with sk := Rfc.toByte s.oid 4 ++ o.sk }, o, by rw [List.getElem?_map, ho]; rfl, hpost, rfl, rfl, rfl⟩
  choose! Hs outs hist1 hist2 hist3 using hist
  intro j c hj
  obtain ⟨s, o, m', a1, a2, a3, a4, a5⟩ := C88_many_keys_fast_refines (P := P) slots hg hsep cs m key (fun t => ((slots[t]?.map fun s => outs t s).getD [])) hk hok hu
    (by intro t s hs; simp only [hs, Option.map_some, Option.getD_some]; exact hist2 t s hs) j c hj
  simp only [a1, Option.map_some, Option.getD_some] at a2
  have hH := hist1 _ _ a1
  have hp := hg s (List.mem_of_getElem? a1)
  obtain ⟨g, _⟩ := parseFast_good hp
  obtain ⟨H', hH', hHl⟩ := Family.hashFast (P := P) hp
  rw [hH] at hH'
  obtain rfl := Option.some.inj hH'
  -- the call as one of the calls of its key
  have hsplit : cs = cs.take j ++ c :: cs.drop (j + 1) := by
    obtain ⟨hjl, rfl⟩ := List.getElem?_eq_some_iff.mp hj
    rw [← List.drop_eq_getElem_cons hjl, List.take_append_drop]
  have hcall : (callsOf slots c.who cs)[uses c.who (cs.take j)]? =
      some ⟨List.replicate (s.p.sig_bytes + c.M.length) 0, c.smlen0, c.M⟩ := by
    rw [congrArg (callsOf slots c.who) hsplit, callsOf, List.filter_append, List.map_append, List.getElem?_append_right (by simp [uses]), List.filter_cons]
    simp [uses, a1]
  have hlt : uses c.who (cs.take j) < uses c.who cs := by
    rw [← huse]
    exact (List.getElem?_eq_some_iff.mp hcall).1
  obtain ⟨c1, _⟩ := hcap _ _ a1
  obtain ⟨o1, o2, b1, b2, b3, b4, b5⟩ := hist3 _ _ a1 _ _ hcall
  rw [a2] at b1
  obtain rfl := Option.some.inj b1
  obtain ⟨d1, d2, d3, _⟩ := b2.ok (by omega)
  refine ⟨s, _, m', a1, hH, by rw [a3, b3, d1, b4, d2], ?_⟩
  have := a5 (by rw [b3, d1])
  rw [b5, d3] at this
  dsimp only at this
  rw [List.drop_of_length_le (by simp), List.append_nil, List.take_of_length_le (by
    rw [List.length_append, sign_length g hHl])] at this
  exact this

end Xmss.Low
