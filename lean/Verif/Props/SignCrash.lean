import Verif.Proof.SignCrashFast
/-
C79: a sign call that is cut off at any moment, with the secret key in persistent memory.
-/
namespace Xmss

variable {P : Prims} {f : Family} {oid : Nat} {p : Params} {H : Bytes → Bytes}

namespace SignCrash
open SignThreads Reuse

theorem signSteps_eq (j : Nat) (w : Bytes × SignThread) : signSteps H p j w = steps H p j w := by
  induction j generalizing w with
  | zero => rfl
  | succ j ih =>
    rw [signSteps, steps]
    cases signThreadStep H p w.1 w.2 with
    | none => rfl
    | some w' => exact ih w'

theorem history {K : SignEvent → Prop} : ∀ (es : List SignEvent) (sk : Bytes), SignHistory K p sk es →
    (∀ e ∈ es, K e → e.before.length = p.sk_bytes → EventOk p e) → sk.length = p.sk_bytes →
    (∀ e ∈ es, K e ∧ EventOk p e ∧ e.before.length = p.sk_bytes ∧ e.sm0.length = p.sig_bytes + e.m.length ∧
      storedIndex p sk ≤ storedIndex p e.before ∧ (storedIndex p e.before < 2 ^ p.full_height → storedMaterial p e.before = storedMaterial p sk)) ∧
    es.Pairwise (fun e e' => e.Released p → storedIndex p e.before < storedIndex p e'.before) := by
  intro es
  induction es with
  | nil => intro sk _ _ _; simp
  | cons e es ih =>
    rintro sk ⟨h1, rfl, h3, h4⟩ hK hl
    have ok := hK e (by simp) h1 hl
    obtain ⟨q1, q2⟩ := ih e.after h4 (fun e' he' => hK e' (by simp [he'])) (ok.len.trans hl)
    refine ⟨?_, ?_⟩
    · intro e' he'
      rcases List.mem_cons.mp he' with rfl | he'
      · exact ⟨h1, ok, hl, h3, Nat.le_refl _, fun _ => rfl⟩
      · obtain ⟨a1, a2, a3, a4, a5, a6⟩ := q1 e' he'
        refine ⟨a1, a2, a3, a4, Nat.le_trans ok.le a5, fun h => ?_⟩
        rw [a6 h, ok.mat (by omega)]
    · refine List.pairwise_cons.mpr ⟨fun e' he' hR => ?_, q2⟩
      have := (ok.rel hR).1
      have := (q1 e' he').2.2.2.2.1
      omega

/-- A call that has returned: what the function returns. -/
theorem simple_done (g : p.Good) (hskb : p.sk_bytes = p.index_bytes + 4 * p.n) (hH : ∀ x, (H x).length = p.n) {e : SignEvent}
    (he : SimpleEvent H p e) (hl : e.before.length = p.sk_bytes) (hs : e.sm0.length = p.sig_bytes + e.m.length) {r : Int}
    (hr : e.ret = some r) : ∃ o, coreSign H p e.before e.sm0 e.m = some o ∧ o.sk = e.after ∧ o.sm = e.sm ∧ o.ret = r := by
  cases he with
  | @between sk sm m j w h =>
    simp only at hl hs hr ⊢
    obtain ⟨sk', pc, sm', m'⟩ := w
    obtain ⟨o, h1, _, h3⟩ := alone g hskb hH sk sm m hl (by omega) (j + (3 * p.index_bytes + p.sk_bytes + 7)) (by omega)
    cases pc <;> simp only [SignPc.ret, reduceCtorEq] at hr
    obtain rfl := Option.some.inj hr
    rw [signSteps_eq] at h
    have := steps_add h (steps_done (H := H) (p := p) (3 * p.index_bytes + p.sk_bytes + 7) sk' sm' m' _)
    rw [h3] at this
    simp only [Option.some.injEq, Prod.mk.injEq, SignThread.mk.injEq, SignPc.done.injEq] at this
    exact ⟨o, h1, this.1, this.2.2.1, this.2.1⟩
  | inside => simp at hr

theorem steps_linv (hib : f = .xmss → p.index_bytes = 4) (h8 : p.index_bytes ≤ 8) (hsk : p.sk_bytes = fastSkBytes p) (hd : f = .xmss → p.d = 1) :
    ∀ (j : Nat) (c c' : FastCall), LInv p c → fastCallSteps f H p j c = some c' → res f H p c = res f H p c' := by
  intro j
  induction j with
  | zero => intro c c' _ h; obtain rfl := Option.some.inj h; rfl
  | succ j ih =>
    intro c c' hl h
    obtain ⟨c1, h1, h2⟩ := Option.bind_eq_some_iff.mp h
    obtain ⟨h3, h4⟩ := step_res (H := H) hib h8 hsk hd hl
    rw [h1] at h3
    rw [← h3]
    exact ih c1 c' (h4 c1 h1).1 h2

theorem fast_done (hib : f = .xmss → p.index_bytes = 4) (h8 : p.index_bytes ≤ 8) (hsk : p.sk_bytes = fastSkBytes p) (hd : f = .xmss → p.d = 1)
    {e : SignEvent} (he : FastEvent f H p e) (hl : e.before.length = p.sk_bytes) {r : Int} (hr : e.ret = some r) :
    ∃ l0 o, coreFast f H p e.before e.sm0 l0 e.m = some o ∧ o.sk = e.after ∧ o.sm = e.sm ∧ o.ret = r := by
  cases he with
  | @between sk sm m l0 j c h =>
    simp only at hl hr ⊢
    have := steps_linv hib h8 hsk hd j (fastCallStart sk sm l0 m) c ⟨hl, rfl⟩ h
    obtain ⟨pc, sk', sm', l', m', st, sg, lv⟩ := c
    cases pc <;> simp only [FastPc.ret, reduceCtorEq] at hr
    obtain rfl := Option.some.inj hr
    exact ⟨l0, _, this, rfl, rfl, rfl⟩
  | inside => simp at hr

/-- Steps of the fast implementation that write the index. -/
theorem write_some (h8 : p.index_bytes ≤ 8) (hib : f = .xmss → p.index_bytes = 4) (hsk : p.sk_bytes = fastSkBytes p) (hth : p.tree_height < 31)
    (hfh : p.full_height < 64) {sk : Bytes} (hl : sk.length = p.sk_bytes) (hx : storedIndex p sk < 2 ^ p.full_height - 1) (sm : Bytes) (l0 : Nat)
    (m : Bytes) : ∀ j ≤ p.index_bytes, ∃ c, fastCallSteps f H p (1 + j) (fastCallStart sk sm l0 m) = some c ∧
      c.pc = .writing (storedIndex p sk) j ∧ c.sk.length = p.sk_bytes := by
  have hle : p.index_bytes ≤ p.sk_bytes := by rw [hsk, fastSkBytes]; omega
  intro j
  induction j with
  | zero =>
    intro _
    obtain ⟨states, sigs, hds, sh, -, -⟩ := deserialize_any (p := p) sk (by omega)
    have hrd : rd sk 0 p.index_bytes = some (sk.take p.index_bytes) := by rw [rd_some (by omega), List.drop_zero]
    have hb : bytesToUll (sk.take p.index_bytes) = some (storedIndex p sk) := bytesToUll_eq (by simp; omega)
    refine ⟨_, by
      simp only [fastCallSteps, fastCallStep, fastCallStart]
      rw [if_neg (by omega), hds]
      simp only [Option.bind_eq_bind, Option.bind_some, hrd, hb]
      rw [if_neg (by omega)]
      rfl, ?_, hl⟩
    simp only [fastCallStart, if_neg (show ¬ 2 ^ p.full_height - 1 ≤ storedIndex p sk by omega)]
  | succ j ih =>
    intro hj
    obtain ⟨c, h1, h2, h3⟩ := ih (by omega)
    have e : ∀ (a : Nat) (c0 c1 c2 : FastCall), fastCallSteps f H p a c0 = some c1 → fastCallStep f H p c1 = some c2 →
        fastCallSteps f H p (a + 1) c0 = some c2 := by
      intro a
      induction a with
      | zero => intro c0 c1 c2 q1 q2; obtain rfl := Option.some.inj q1; rw [fastCallSteps, q2]; rfl
      | succ a iha =>
        intro c0 c1 c2 q1 q2
        obtain ⟨d, d1, d2⟩ := Option.bind_eq_some_iff.mp q1
        rw [fastCallSteps, d1]
        exact iha d c1 c2 d2 q2
    refine ⟨_, e _ _ _ _ h1 (by
      simp only [fastCallStep, h2]
      rw [if_pos (by omega), if_pos (by omega)]), rfl, by simpa using h3⟩

end SignCrash
open SignCrash SignThreads Reuse

/-! ### C79 -/

/-- **C79 (the calls are those of the API).**  A call that is not cut off does what `xmss_sign` / `xmssmt_sign` of the simple
implementation does. -/
theorem C79_whole_call (hp : f.parse oid = some p) (hH : coreHash P p.func p.n = some H) (sk sm : Bytes) (l0 : Nat) (m : Bytes)
    (hsk : sk.length = 4 + p.sk_bytes) (ho : readOid sk = some oid) (hsm : sm.length = p.sig_bytes + m.length) :
    ∃ o, f.sign P sk sm l0 m = some o ∧ SimpleEvent H p ⟨sk.drop 4, sm, m, o.sk.drop 4, o.sm, some o.ret⟩ := by
  obtain ⟨o, h1, _, _, h4⟩ := api_alone hp hH sk sm l0 m hsk ho (by omega) _ (Nat.le_refl _)
  rw [← signSteps_eq] at h4
  exact ⟨o, h1, SimpleEvent.between h4⟩

/-- **C79 (the calls are those of the API, fast implementation).**  The call is defined if and only if enough steps of it are, and
then leaves the same. -/
theorem C79_whole_call_fast (hp : f.parseFast oid = some p) (hH : coreHash P p.func p.n = some H) (sk sm : Bytes) (l0 : Nat) (m : Bytes)
    (hsk : sk.length = p.sk_bytes) (N : Nat) (hN : p.sk_bytes + p.index_bytes + 4 ≤ N) :
    (f.signFast P (Rfc.toByte oid 4 ++ sk) sm l0 m = none ∧ fastCallSteps f H p N (fastCallStart sk sm l0 m) = none) ∨
    ∃ o c, f.signFast P (Rfc.toByte oid 4 ++ sk) sm l0 m = some o ∧ fastCallSteps f H p N (fastCallStart sk sm l0 m) = some c ∧
      c.pc = .done o.ret ∧ c.sk = o.sk.drop 4 ∧ c.sm = o.sm ∧ c.smlen = o.smlen := by
  obtain ⟨g, hskb, ho, _, h1, _⟩ := parseFast_good hp
  have heq : ∀ o, coreFast f H p sk sm l0 m = some o →
      f.signFast P (Rfc.toByte oid 4 ++ sk) sm l0 m = some { o with sk := Rfc.toByte oid 4 ++ o.sk } := by
    intro o h
    cases f with
    | xmss => exact apiSignFast_eq (parse := parseXmssFast) (core := fastXmssSign) hp ho hH h
    | xmssmt => exact apiSignFast_eq (parse := parseXmssmtFast) (core := fastXmssmtSign) hp ho hH h
  rcases steps_res (H := H) (fun h => (h1 h).2) g.idx_le hskb (fun h => (h1 h).1) N (fastCallStart sk sm l0 m) ⟨hsk, rfl⟩ hN with
    ⟨a1, a2⟩ | ⟨c', o, a1, a2, a3, a4, a5, a6, _⟩
  · refine .inl ⟨?_, a1⟩
    cases hs : f.signFast P (Rfc.toByte oid 4 ++ sk) sm l0 m with
    | none => rfl
    | some o =>
      cases f with
      | xmss =>
        obtain ⟨o', b1, _⟩ := apiSignFast_inv (parse := parseXmssFast) (core := fastXmssSign) hp ho hH hs
        exact absurd (a2.symm.trans b1) (by simp)
      | xmssmt =>
        obtain ⟨o', b1, _⟩ := apiSignFast_inv (parse := parseXmssmtFast) (core := fastXmssmtSign) hp ho hH hs
        exact absurd (a2.symm.trans b1) (by simp)
  · refine .inr ⟨_, c', heq o a2, a1, a3, ?_, a5, a6⟩
    rw [a4, List.drop_left' (toByte_length _ _)]

/-- **C79 (fast implementation).**  Start from any key bytes and make any sequence of sign calls, each of them cut off anywhere or
complete.  The stored index never decreases; when a call has written anything of a signature (or has returned success) the index in the
key is already past the one it uses, so no later call, cut off or not, uses that index again; a complete successful call has its stored
index in the signature; the seeds and the root are those of the start as long as the key is not exhausted.
(Height 40 is excluded: there the deleted key looks like one with an index left, C55.  If a crash has damaged the traversal state,
a later call may be undefined behaviour, C56; the calls here are defined up to where they are cut off.) -/
theorem C79_crash_history_fast_partial (hp : f.parseFast oid = some p) (hH : coreHash P p.func p.n = some H)
    (h40 : 2 ^ p.full_height < 256 ^ p.index_bytes) (sk : Bytes) (hsk : sk.length = p.sk_bytes) (es : List SignEvent)
    (hes : SignHistory (FastEvent f H p) p sk es) :
    es.Pairwise (fun e e' => e.Released p → storedIndex p e.before < storedIndex p e'.before) ∧
    ∀ e ∈ es, storedIndex p sk ≤ storedIndex p e.before ∧ storedIndex p e.before ≤ storedIndex p e.after ∧
      (e.Released p → storedIndex p e.before < storedIndex p e.after ∧ storedIndex p e.before < 2 ^ p.full_height) ∧
      (storedIndex p e.before < 2 ^ p.full_height → storedMaterial p e.before = storedMaterial p sk) ∧
      (e.ret = some 0 → storedIndex p e.before + 1 < 2 ^ p.full_height → index (suiteOf p H) e.sm = storedIndex p e.before) := by
  obtain ⟨g, hskb, ho, _, h1, _⟩ := parseFast_good hp
  have hle : p.index_bytes + 4 * p.n ≤ p.sk_bytes := by rw [hskb, fastSkBytes]; omega
  obtain ⟨q1, q2⟩ := history es sk hes (fun e _ he hl => fast_event g.idx_le (fun h => (h1 h).2) h40 hle he hl) hsk
  refine ⟨q2, fun e he => ?_⟩
  obtain ⟨a1, a2, a3, a4, a5, a6⟩ := q1 e he
  refine ⟨a5, a2.le, a2.rel, a6, fun hr hx => ?_⟩
  obtain ⟨l0, o, b1, _, b3, _⟩ := fast_done (fun h => (h1 h).2) g.idx_le hskb (fun h => (h1 h).1) a1 a3 hr
  obtain ⟨x, rest, hxl, e1, hrl, hst⟩ := key_split (p := p) (sk := e.before) (by omega)
  rw [a3] at hrl
  obtain ⟨k, hk, hm⟩ := mat_of_length (p := p) (rest.take (4 * p.n)) (by simp; omega)
  have hdam : Rfc.toByte oid 4 ++ e.before = k.damaged p oid x (rest.drop (4 * p.n)) := by
    rw [Key.damaged, hm, List.append_assoc (Rfc.toByte x _), List.take_append_drop, ← e1]
  have hs : f.signFast P (Rfc.toByte oid 4 ++ e.before) e.sm0 l0 e.m = some { o with sk := Rfc.toByte oid 4 ++ o.sk } := by
    cases f with
    | xmss => exact apiSignFast_eq (parse := parseXmssFast) (core := fastXmssSign) hp ho hH b1
    | xmssmt => exact apiSignFast_eq (parse := parseXmssmtFast) (core := fastXmssmtSign) hp ho hH b1
  rw [hdam] at hs
  have post := C56_damaged_state hp hH k hk x hxl (rest.drop (4 * p.n)) (by simp; omega) ⟨e.sm0, l0, e.m⟩ (by simp only; omega) _ hs
  obtain ⟨_, _, ⟨tl, _, c3⟩, _⟩ := post.ok (by omega)
  simp only at c3
  rw [← b3, c3, hst, index, show (suiteOf p H).idxLen = p.index_bytes from rfl, sigHead]
  simp only [List.append_assoc]
  rw [List.take_left' (toByte_length _ _), toNat_toByte, Nat.mod_eq_of_lt hxl]

/-- **C79 (simple implementation).**  The same, if no call is cut off at a moment when the stored index is 255 modulo 256 (the new
index has a carry into the second byte); without this it is false, see `C79_fails_simple`. -/
theorem C79_crash_history_simple_partial (hp : f.parse oid = some p) (hH : coreHash P p.func p.n = some H)
    (h40 : 2 ^ p.full_height < 256 ^ p.index_bytes) (sk : Bytes) (hsk : sk.length = p.sk_bytes) (es : List SignEvent)
    (hes : SignHistory (SimpleEvent H p) p sk es)
    (hc : ∀ e ∈ es, e.ret ≠ none ∨ storedIndex p e.before % 256 ≠ 255 ∨ 2 ^ p.full_height - 1 ≤ storedIndex p e.before) :
    es.Pairwise (fun e e' => e.Released p → storedIndex p e.before < storedIndex p e'.before) ∧
    ∀ e ∈ es, storedIndex p sk ≤ storedIndex p e.before ∧ storedIndex p e.before ≤ storedIndex p e.after ∧
      (e.Released p → storedIndex p e.before < storedIndex p e.after ∧ storedIndex p e.before < 2 ^ p.full_height) ∧
      (storedIndex p e.before < 2 ^ p.full_height → storedMaterial p e.before = storedMaterial p sk) ∧
      (e.ret = some 0 → storedIndex p e.before + 1 < 2 ^ p.full_height → index (suiteOf p H) e.sm = storedIndex p e.before) := by
  obtain ⟨g, hskb, ho, _⟩ := Family.facts (P := P) hp
  have hHl := Family.hash_length hp hH
  obtain ⟨q1, q2⟩ := history es sk hes (fun e hm he hl => simple_event g.idx_le h40 hskb he hl (hc e hm)) hsk
  refine ⟨q2, fun e he => ?_⟩
  obtain ⟨a1, a2, a3, a4, a5, a6⟩ := q1 e he
  refine ⟨a5, a2.le, a2.rel, a6, fun hr hx => ?_⟩
  obtain ⟨o, b1, _, b3, _⟩ := simple_done g hskb hHl a1 a3 a4 hr
  obtain ⟨k, hk, x, hxl, e1⟩ := sk_decompose p e.before (by omega)
  have hst : storedIndex p e.before = x := by
    rw [e1, List.append_assoc, List.append_assoc, List.append_assoc, stored_eq x hxl]
  have hsp : Rfc.toByte oid 4 ++ e.before = k.sk p oid x := by
    rw [e1, Key.sk]
  have hroid : readOid (k.sk p oid x) = some oid := by
    rw [← hsp]; exact readOid_toByte (oid := oid) (by omega) _
  obtain ⟨o', d1, _, _, d4⟩ := api_alone (f := f) hp hH (k.sk p oid x) e.sm0 0 e.m (by rw [← hsp]; simp [toByte_length, a3]) hroid (by omega)
    _ (Nat.le_refl _)
  obtain ⟨o'', d5, _, d6⟩ := alone g hskb hHl e.before e.sm0 e.m a3 (by omega) (3 * p.index_bytes + p.sk_bytes + 7) (Nat.le_refl _)
  rw [b1] at d5
  obtain rfl := Option.some.inj d5
  rw [← hsp, List.drop_left' (toByte_length _ _), d6] at d4
  simp only [Option.some.injEq, Prod.mk.injEq, SignThread.mk.injEq] at d4
  have hall := signAll_eq (f := f) hp hH [⟨e.sm0, 0, e.m⟩] x k hk hxl (by intro c hc'; simp only [List.mem_singleton] at hc'; subst hc'; exact a4)
  simp only [signAll, d1, Option.bind_eq_bind, Option.bind_some, List.mapIdx_cons, List.mapIdx_nil, Option.some.injEq, List.cons.injEq,
    and_true] at hall
  rw [← b3, d4.2.2.1, hall, outcome, stateAfter]
  simp only
  rw [if_pos (by omega), hst]
  have hle : p.index_bytes ≤ p.sig_bytes := by have := g.sig_eq; omega
  obtain ⟨_, a2', _⟩ := sign_fields g hHl k x hxl e.m
  rw [index, List.take_append_of_le_length (by rw [sign_length g hHl]; exact hle)]
  exact a2'

/-- **C79 fails for the simple implementation.**  Take a new key and any history of `n` complete calls, where `n` is 255 modulo 256.
If the next call is cut off after it has written one byte of the index (it writes the low byte first), the key in memory is left with
index `n - 255`: up to 255 calls that follow all return success and repeat indices of the history. -/
theorem C79_fails_simple (hp : f.parse oid = some p) (hH : coreHash P p.func p.n = some H) (pk0 sk0 : Bytes)
    (hpk : pk0.length = 4 + p.pk_bytes) (hsk : sk0.length = 4 + p.sk_bytes) (seed : Nat → Bytes)
    (hs : (seed p.n).length = 3 * p.n) :
    let S := suiteOf p H
    ∃ pk sk, f.keypair P pk0 sk0 oid seed = some (0, pk, sk) ∧
      ∀ cs c, Sized p cs → Sized p [c] → cs.length < 2 ^ p.full_height - 1 → cs.length % 256 = 255 →
      ∃ outs, signAll P f sk cs = some outs ∧
        ∃ e, SimpleEvent H p e ∧ e.before = (keyAfter sk outs).drop 4 ∧ e.sm0 = c.sm ∧ e.m = c.msg ∧ ¬ e.Released p ∧
        storedIndex p e.before = cs.length ∧ storedIndex p e.after + 255 = cs.length ∧
        ∀ cs2, Sized p cs2 → cs2.length ≤ 255 → ∃ outs2, signAll P f (sk.take 4 ++ e.after) cs2 = some outs2 ∧ outs2.length = cs2.length ∧
          ∀ j o2, outs2[j]? = some o2 → o2.ret = 0 ∧
            ∃ o, outs[cs.length - 255 + j]? = some o ∧ o.ret = 0 ∧ index S o2.sm = index S o.sm := by
  intro S
  obtain ⟨g, hskb, ho, _⟩ := Family.facts (P := P) hp
  have hHl := Family.hash_length hp hH
  obtain ⟨k, hv, hh, _, hk⟩ := keypair_key hp hH pk0 sk0 hpk hsk seed hs
  refine ⟨_, _, hk, ?_⟩
  intro cs c h0 h1 hlen hmod
  have hi := g.idx_fits
  have hle : p.index_bytes ≤ p.sig_bytes := by have := g.sig_eq; omega
  obtain ⟨outs, o1, o2, o3, o4⟩ := keyAfter_history (f := f) hp hH k hv cs h0 (by omega)
  obtain ⟨a, b, e0, ha, hb⟩ := sm_split (h1 c (by simp))
  have r1 := read_thread (H := H) g k cs.length hlen a b c.msg ha hb
  rw [← e0] at r1
  obtain ⟨j, hj⟩ : ∃ j, p.index_bytes = j + 1 := by
    cases h : p.index_bytes with
    | zero => rw [h] at hi; simp at hi; omega
    | succ j => exact ⟨j, rfl⟩
  set n := cs.length with hn
  have ebody : ∀ x : Nat, body k p x = Rfc.toByte (x / 256) j ++ ([UInt8.ofNat x] ++ (k.skSeed ++ k.skPrf ++ k.root ++ k.pubSeed)) := by
    intro x; rw [body, hj, toByte_succ, List.append_assoc]
  have eb : UInt8.ofNat (n + 1) = UInt8.ofNat (n - 255) := by
    apply UInt8.toNat_inj.mp
    simp only [UInt8.toNat_ofNat']
    omega
  have ed : (n - 255) / 256 = n / 256 := by omega
  have b1' : steps H p 1 (body k p n,
      ⟨.writing n p.index_bytes, Rfc.toByte n p.index_bytes ++ a.drop p.index_bytes ++ c.msg ++ [], c.msg⟩) =
      some (body k p (n - 255), ⟨.writing n j, Rfc.toByte n p.index_bytes ++ a.drop p.index_bytes ++ c.msg ++ [], c.msg⟩) := by
    apply steps_one
    have hl : j < (body k p n).length := by rw [ebody]; simp [toByte_length]
    have hset : (body k p n).set j (UInt8.ofNat (((n + 1) >>> (8 * (p.index_bytes - 1 - j))) &&& 0xff)) = body k p (n - 255) := by
      rw [UInt8_ofNat_and, hj, Nat.add_sub_cancel, Nat.sub_self, Nat.mul_zero, Nat.shiftRight_zero, eb, ebody, ebody, ed,
        List.set_append_right _ _ (by rw [toByte_length]), toByte_length, Nat.sub_self]
      rfl
    conv_lhs => rw [show SignPc.writing n p.index_bytes = SignPc.writing n (j + 1) by rw [hj]]
    simp only [signThreadStep]
    rw [if_pos hl, hset]
  have hst := steps_add r1 b1'
  rw [← signSteps_eq] at hst
  have eidx : ∀ i m, i < 2 ^ p.full_height → index S (S.sign k.skSeed k.skPrf k.root k.pubSeed i m ++ m) = i := by
    intro i m him
    obtain ⟨_, a2, _⟩ := sign_fields g hHl k i (by omega) m
    rw [index, List.take_append_of_le_length (by rw [sign_length g hHl]; exact hle)]
    exact a2
  refine ⟨outs, o1, _, SimpleEvent.between hst, ?_, rfl, rfl, ?_, ?_, ?_, ?_⟩
  · rw [o3]; exact (sk_drop k oid n).symm
  · rintro (h | h)
    · apply h
      simp only
      rw [signaturePart, signaturePart, e0, List.append_nil, List.append_nil, List.take_left' (by simp [toByte_length]; omega),
        List.take_left' ha, List.drop_left' (toByte_length _ _)]
    · simp [SignPc.ret] at h
  · exact stored_eq n (by omega) _
  · have : storedIndex p (body k p (n - 255)) = n - 255 := stored_eq (n - 255) (by omega) _
    show storedIndex p (body k p (n - 255)) + 255 = n
    omega
  · intro cs2 hc2 hl2
    have ek : (k.sk p oid 0).take 4 ++ body k p (n - 255) = k.sk p oid (n - 255) := by
      have q : (k.sk p oid 0).take 4 = (k.sk p oid (n - 255)).take 4 := by
        rw [Key.sk_eq, Key.sk_eq, List.take_left' (toByte_length _ _), List.take_left' (toByte_length _ _)]
      rw [q, ← sk_drop k oid (n - 255), List.take_append_drop]
    refine ⟨_, by simp only; rw [ek]; exact signAll_eq hp hH cs2 (n - 255) k hv (by omega) hc2, by simp, ?_⟩
    intro i o2' ho2
    rw [List.getElem?_mapIdx] at ho2
    cases hc : cs2[i]? with
    | none => simp [hc] at ho2
    | some c2 =>
      have hi' : i < cs2.length := (List.getElem?_eq_some_iff.mp hc).1
      simp only [hc, Option.map_some, Option.some.injEq] at ho2
      have est : ∀ b t, b + t ≤ 2 ^ p.full_height - 1 → stateAfter p (b, k) t = (b + t, k) := by
        intro b t
        induction t with
        | zero => intro _; rfl
        | succ t iht =>
          intro ht
          rw [stateAfter, iht (by omega)]
          simp only [nextIdx, nextKey, if_pos (show b + t < 2 ^ p.full_height - 1 by omega)]
          rfl
      rw [est _ i (by omega)] at ho2
      obtain ⟨o, ho'⟩ : ∃ o, outs[n - 255 + i]? = some o := ⟨_, List.getElem?_eq_getElem (by omega)⟩
      obtain ⟨c', _, q1, q2⟩ := o4 _ _ ho'
      rw [← ho2]
      simp only [outcome, if_pos (show n - 255 + i < 2 ^ p.full_height - 1 by omega), if_pos (show n - 255 + i < 2 ^ p.full_height by omega)]
      refine ⟨trivial, o, ho', q1, ?_⟩
      rw [q2, eidx _ _ (by omega), eidx _ _ (by omega)]

/-- **C79 (what a crash costs, fast implementation).**  At an index that is 255 modulo 256 a crash before the last byte of the new index
is written makes the key skip 255 indices; nothing of a signature has been written then. -/
theorem C79_indices_lost_fast (hp : f.parseFast oid = some p) (sk : Bytes) (hsk : sk.length = p.sk_bytes)
    (hx : storedIndex p sk < 2 ^ p.full_height - 1) (hmod : storedIndex p sk % 256 = 255) (sm m : Bytes) :
    ∃ e, FastEvent f H p e ∧ e.before = sk ∧ e.sm0 = sm ∧ e.m = m ∧ e.sm = sm ∧ e.ret = none ∧
      storedIndex p e.after = storedIndex p sk + 256 := by
  obtain ⟨g, hskb, ho, _, h1, _⟩ := parseFast_good hp
  have hi := g.idx_fits
  have hle : p.index_bytes + 4 * p.n ≤ p.sk_bytes := by rw [hskb, fastSkBytes]; omega
  obtain ⟨j, hj⟩ : ∃ j, p.index_bytes = j + 1 := by
    cases h : p.index_bytes with
    | zero => rw [h] at hi; simp at hi; omega
    | succ j => exact ⟨j, rfl⟩
  obtain ⟨c, c1, c2, _⟩ := write_some (f := f) (H := H) g.idx_le (fun h => (h1 h).2) hskb g.th_lt g.fh_lt hsk hx sm 0 m j (by omega)
  obtain ⟨x, rest, hxl, e1, hr, hst⟩ := key_split (p := p) (sk := sk) (by omega)
  have hinv : FInv p x rest sm c := finv_steps g.idx_le (fun h => (h1 h).2) hxl (by omega) _ (c := fastCallStart sk sm 0 m) ⟨e1, rfl⟩ c1
  obtain ⟨pc, sk', sm', l', m', st, sg, lv⟩ := c
  simp only at c2
  subst c2
  obtain ⟨_, _, h3, _, h5⟩ := hinv
  simp only at h3 h5
  refine ⟨_, FastEvent.between c1, rfl, rfl, rfl, h3, rfl, ?_⟩
  simp only
  rw [hst] at hx hmod ⊢
  rw [h5, torn_toByte (by omega), baseIdx, if_pos hx, stored_eq _ (torn_lt (by omega) (by omega)), tornIndex, hj, Nat.add_sub_cancel_left,
    pow_one]
  omega

/-- A crash while the signature is computed: the buffer can hold anything, the index has been advanced. -/
theorem crash_inside (hp : f.parseFast oid = some p) (sk : Bytes) (hsk : sk.length = p.sk_bytes)
    (hx : storedIndex p sk < 2 ^ p.full_height - 1) (sm m sm' : Bytes) (hl : sm'.length = sm.length) :
    ∃ e, FastEvent f H p e ∧ e.before = sk ∧ e.sm0 = sm ∧ e.m = m ∧ e.sm = sm' ∧ e.ret = none ∧ e.after.length = p.sk_bytes ∧
      storedIndex p e.after = storedIndex p sk + 1 := by
  obtain ⟨g, hskb, ho, _, h1, _⟩ := parseFast_good hp
  have hi := g.idx_fits
  have hle : p.index_bytes + 4 * p.n ≤ p.sk_bytes := by rw [hskb, fastSkBytes]; omega
  obtain ⟨c, c1, c2, c3⟩ := write_some (f := f) (H := H) g.idx_le (fun h => (h1 h).2) hskb g.th_lt g.fh_lt hsk hx sm 0 m p.index_bytes
    (Nat.le_refl _)
  have c4 : fastCallSteps f H p (1 + p.index_bytes + 1) (fastCallStart sk sm 0 m) = some { c with pc := .signing (storedIndex p sk) } := by
    have e : ∀ (a : Nat) (c0 c1 c2 : FastCall), fastCallSteps f H p a c0 = some c1 → fastCallStep f H p c1 = some c2 →
        fastCallSteps f H p (a + 1) c0 = some c2 := by
      intro a
      induction a with
      | zero => intro c0 c1 c2 q1 q2; obtain rfl := Option.some.inj q1; rw [fastCallSteps, q2]; rfl
      | succ a iha =>
        intro c0 c1 c2 q1 q2
        obtain ⟨d, d1, d2⟩ := Option.bind_eq_some_iff.mp q1
        rw [fastCallSteps, d1]
        exact iha d c1 c2 d2 q2
    refine e _ _ _ _ c1 ?_
    simp only [fastCallStep, c2]
    rw [if_neg (by omega)]
  obtain ⟨x, rest, hxl, e1, hr, hst⟩ := key_split (p := p) (sk := sk) (by omega)
  have hinv : FInv p x rest sm { c with pc := .signing (storedIndex p sk) } :=
    finv_steps g.idx_le (fun h => (h1 h).2) hxl (by omega) _ (c := fastCallStart sk sm 0 m) ⟨e1, rfl⟩ c4
  obtain ⟨_, _, _, h5⟩ := hinv
  simp only at h5
  refine ⟨_, FastEvent.inside (ext' := c.sk.drop (p.index_bytes + 4 * p.n)) (sm' := sm') c4 rfl hl (by simp; omega), rfl, rfl, rfl, rfl, rfl, ?_, ?_⟩
  · simp only [List.take_append_drop]; exact c3
  · simp only [List.take_append_drop]
    rw [h5, hst, stored_eq _ (by omega)]

/-- Non-vacuity of C79: XMSS-SHA2_10_256, fast implementation, a key with stored index 254.  The first call is cut off while it computes
the signature (something is in the buffer), the second while it writes the index, the third before it does anything: the indices are
254, 255, 511. -/
theorem C79_example (P : Prims) (p : Params) (hp : parseXmssFast 1 = some p) (sk : Bytes) (hsk : sk.length = p.sk_bytes)
    (hx : storedIndex p sk = 254) :
    ∃ e1 e2 e3, SignHistory (FastEvent .xmss P.sha256 p) p sk [e1, e2, e3] ∧ e1.Released p ∧ ¬ e2.Released p ∧
      storedIndex p e1.before = 254 ∧ storedIndex p e2.before = 255 ∧ storedIndex p e3.before = 511 := by
  have hp' : Family.xmss.parseFast 1 = some p := hp
  have hfh : p.full_height = 10 ∧ 8 ≤ p.sig_bytes ∧ p.index_bytes = 4 := by
    rw [show parseXmssFast 1 = xmssParseOid fastSkBytes 1 from rfl] at hp
    have hd : (xmssParseOid fastSkBytes 1).map (fun p => decide (p.full_height = 10 ∧ 8 ≤ p.sig_bytes ∧ p.index_bytes = 4)) = some true := by
      decide +kernel
    rw [hp] at hd
    simpa using hd
  obtain ⟨h10, hsig, hib⟩ := hfh
  set sm : Bytes := List.replicate p.sig_bytes 0 with hsm
  set sm' : Bytes := List.replicate p.sig_bytes 1 with hsm'
  obtain ⟨e1, a1, a2, a3, a4, a5, a6, a7, a8⟩ := crash_inside (H := P.sha256) hp' sk hsk (by rw [hx, h10]; omega) sm [] sm' (by simp [sm, sm'])
  rw [hx] at a8
  obtain ⟨e2, b1, b2, b3, b4, b5, b6, b7⟩ := C79_indices_lost_fast (H := P.sha256) hp' e1.after a7 (by rw [a8, h10]; omega) (by rw [a8]) sm []
  rw [a8] at b7
  have hlen : e1.sm0.length = p.sig_bytes + e1.m.length := by rw [a3, a4]; simp [sm]
  have hlen2 : e2.sm0.length = p.sig_bytes + e2.m.length := by rw [b3, b4]; simp [sm]
  refine ⟨e1, e2, ⟨e2.after, sm, [], e2.after, sm, none⟩,
    ⟨a1, a2, hlen, b1, b2, hlen2, FastEvent.between (l0 := 0) (j := 0) (c := fastCallStart e2.after sm 0 []) rfl, rfl, by simp [sm], trivial⟩,
    .inl ?_, ?_, by rw [a2, hx], by rw [b2, a8], b7⟩
  · rw [a3, a5, signaturePart, signaturePart, hsm, hsm', List.take_replicate, List.take_replicate, List.drop_replicate, List.drop_replicate]
    intro h
    have h1 := congrArg List.head? h
    rw [hib, Nat.min_self, show p.sig_bytes - 4 = (p.sig_bytes - 5) + 1 by omega, List.replicate_succ, List.replicate_succ] at h1
    simp at h1
  · rintro (h | h)
    · exact h (by rw [b3, b5])
    · rw [b6] at h; cases h

/-- Non-vacuity of `C79_fails_simple`: XMSS-SHA2_10_256, a key that has made 255 signatures; the call after the crash uses index 0 again. -/
theorem C79_example_simple (P : Prims) (seed : Nat → Bytes) (hs : (seed 32).length = 96) :
    let call : Call := ⟨List.replicate (q.sig_bytes + 1) 0, 0, [7]⟩
    let S := suiteOf q P.sha256
    ∃ pk sk outs e o, xmssKeypair P (List.replicate 68 0) (List.replicate 136 0) 1 seed = some (0, pk, sk) ∧
      signAll P .xmss sk (List.replicate 255 call) = some outs ∧ SimpleEvent P.sha256 q e ∧ e.before = (keyAfter sk outs).drop 4 ∧
      storedIndex q e.before = 255 ∧ storedIndex q e.after = 0 ∧ signAll P .xmss (sk.take 4 ++ e.after) [call] = some [o] ∧ o.ret = 0 ∧
      ∃ o0, outs[0]? = some o0 ∧ o0.ret = 0 ∧ index S o.sm = index S o0.sm := by
  intro call S
  have hp : Family.xmss.parse 1 = some q := rfl
  have hH : coreHash P q.func q.n = some P.sha256 := rfl
  have hc : ∀ n, Sized q (List.replicate n call) := by
    intro n c hc
    rw [List.eq_of_mem_replicate hc]
    simp [call]
  obtain ⟨pk, sk, hk, hall⟩ := C79_fails_simple (f := .xmss) (P := P) hp hH (List.replicate 68 0) (List.replicate 136 0) (by simp; rfl) (by simp; rfl)
    seed hs
  obtain ⟨outs, h1, e, h2, h3, _, _, _, h4, h5, h6⟩ := hall (List.replicate 255 call) call (hc 255) (hc 1)
    (by rw [List.length_replicate]; decide) (by rw [List.length_replicate])
  obtain ⟨outs2, g1, g2, g3⟩ := h6 [call] (hc 1) (by simp)
  obtain ⟨o, rfl⟩ := List.length_eq_one_iff.mp g2
  obtain ⟨r1, o0, r2, r3, r4⟩ := g3 0 o rfl
  rw [List.length_replicate] at h4 h5 r2
  exact ⟨pk, sk, outs, e, o, hk, h1, h2, h3, h4, by omega, g1, r1, o0, r2, r3, r4⟩

end Xmss
