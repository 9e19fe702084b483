import Verif.Model.SignThreads
import Verif.Props.Reuse
/-
C70: signing from several threads with one secret key in memory.
-/
namespace Xmss

variable {P : Prims} {f : Family} {oid : Nat} {p : Params} {H : Bytes → Bytes}

namespace SignThreads

/-- `k` steps of one thread. -/
def steps (H : Bytes → Bytes) (p : Params) : Nat → Bytes × SignThread → Option (Bytes × SignThread)
  | 0, w => some w
  | k + 1, w => (signThreadStep H p w.1 w.2).bind (steps H p k)

theorem steps_add {a b : Nat} {w w' w'' : Bytes × SignThread} (h1 : steps H p a w = some w') (h2 : steps H p b w' = some w'') :
    steps H p (a + b) w = some w'' := by
  induction a generalizing w with
  | zero => simp only [steps, Option.some.injEq] at h1; subst h1; simpa using h2
  | succ a ih =>
    rw [Nat.succ_add, steps]
    rw [steps] at h1
    cases hs : signThreadStep H p w.1 w.2 with
    | none => simp [hs] at h1
    | some r => rw [hs] at h1; exact ih h1

theorem steps_one {w w' : Bytes × SignThread} (h : signThreadStep H p w.1 w.2 = some w') : steps H p 1 w = some w' := by
  simp [steps, h]

theorem run_append (s1 s2 : List Nat) (w : Bytes × List SignThread) :
    signThreads H p (s1 ++ s2) w = (signThreads H p s1 w).bind (signThreads H p s2) := by
  induction s1 generalizing w with
  | nil => rfl
  | cons i s ih =>
    obtain ⟨sk, ts⟩ := w
    simp only [List.cons_append, signThreads, Option.bind_eq_bind]
    cases ts[i]? with
    | none => rfl
    | some t =>
      simp only [Option.bind_some]
      cases signThreadStep H p sk t with
      | none => rfl
      | some r => simp [ih]

theorem run_block {k i : Nat} {sk sk' : Bytes} {ts : List SignThread} {t t' : SignThread} (hi : ts[i]? = some t)
    (h : steps H p k (sk, t) = some (sk', t')) :
    signThreads H p (List.replicate k i) (sk, ts) = some (sk', ts.set i t') := by
  induction k generalizing sk ts t with
  | zero =>
    simp only [steps, Option.some.injEq, Prod.mk.injEq] at h
    obtain ⟨rfl, rfl⟩ := h
    simp only [List.replicate_zero, signThreads, Option.some.injEq, Prod.mk.injEq, true_and]
    obtain ⟨h1, h2⟩ := List.getElem?_eq_some_iff.mp hi
    rw [← h2, List.set_getElem_self]
  | succ k ih =>
    rw [steps] at h
    simp only [List.replicate_succ, signThreads, hi, Option.bind_eq_bind, Option.bind_some]
    cases hs : signThreadStep H p sk t with
    | none => simp [hs] at h
    | some r =>
      simp only [hs, Option.bind_some] at h ⊢
      have hl : i < ts.length := (List.getElem?_eq_some_iff.mp hi).1
      rw [ih (by simp [hl]) h]
      simp

theorem steps_done (k : Nat) (sk sm m : Bytes) (r : Int) :
    steps H p k (sk, ⟨.done r, sm, m⟩) = some (sk, ⟨.done r, sm, m⟩) := by
  induction k with
  | zero => rfl
  | succ k ih => rw [steps]; simp only [signThreadStep, Option.bind_some, ih]

/-! ### The loops -/

theorem read_loop (r : Bytes) : ∀ (g rest sm m : Bytes), g.length + r.length = p.index_bytes →
    steps H p r.length (g ++ r ++ rest, ⟨.reading g, sm, m⟩) = some (g ++ r ++ rest, ⟨.reading (g ++ r), sm, m⟩) := by
  induction r with
  | nil => intro g rest sm m _; simp [steps]
  | cons b r ih =>
    intro g rest sm m hl
    simp only [List.length_cons] at hl
    rw [List.length_cons, steps]
    have hb : (g ++ b :: r ++ rest)[g.length]? = some b := by simp
    simp only [signThreadStep]
    rw [if_pos (by omega), hb]
    simp only [Option.bind_eq_bind, Option.bind_some]
    have := ih (g ++ [b]) rest sm m (by simp; omega)
    simpa using this

theorem copy_loop (idx : Nat) (r : Bytes) : ∀ (g rest a b c m : Bytes), g.length + r.length = p.index_bytes → a.length = g.length →
    b.length = r.length →
    steps H p r.length (g ++ r ++ rest, ⟨.copying idx g.length, a ++ b ++ c, m⟩) =
      some (g ++ r ++ rest, ⟨.copying idx (g.length + r.length), a ++ r ++ c, m⟩) := by
  induction r with
  | nil => intro g rest a b c m _ _ hb; simp at hb; subst hb; simp [steps]
  | cons x r ih =>
    intro g rest a b c m hl ha hb
    simp only [List.length_cons] at hl
    obtain ⟨y, b, rfl⟩ : ∃ y b', b = y :: b' := by
      cases b with
      | nil => simp at hb
      | cons y b => exact ⟨y, b, rfl⟩
    rw [List.length_cons, steps]
    have hx : (g ++ x :: r ++ rest)[g.length]? = some x := by simp
    simp only [signThreadStep]
    rw [if_pos (by omega), hx]
    simp only [Option.bind_eq_bind, Option.bind_some]
    have e : a ++ y :: b ++ c = a ++ [y] ++ (b ++ c) := by simp
    rw [e, wr_append a [y] (b ++ c) [x] ha.symm rfl]
    simp only [Option.bind_some]
    have := ih (g ++ [x]) rest (a ++ [x]) b c m (by simp; omega) (by simp [ha]) (by simpa using hb)
    simp only [List.length_append, List.length_cons, List.length_nil, Nat.zero_add] at this
    have e2 : g.length + (r.length + 1) = g.length + 1 + r.length := by omega
    rw [e2]
    simpa using this

theorem toByte_get (x k j : Nat) (hj : j < k) :
    (Rfc.toByte x k)[j]? = some (UInt8.ofNat ((x >>> (8 * (k - 1 - j))) &&& 0xff)) := by
  rw [UInt8_ofNat_and, Nat.shiftRight_eq_div_pow, Nat.pow_mul]
  simp [Rfc.toByte, hj]

theorem write_loop (idx : Nat) (sm m rest : Bytes) : ∀ (a : Bytes) (t : Bytes), a.length + t.length = p.index_bytes →
    t = (Rfc.toByte (idx + 1) p.index_bytes).drop a.length →
    steps H p a.length (a ++ t ++ rest, ⟨.writing idx a.length, sm, m⟩) =
      some (Rfc.toByte (idx + 1) p.index_bytes ++ rest, ⟨.writing idx 0, sm, m⟩) := by
  intro a
  induction a using List.reverseRecOn with
  | nil => intro t hl ht; simp at ht; subst ht; simp [steps]
  | append_singleton a x ih =>
    intro t hl ht
    simp only [List.length_append, List.length_cons, List.length_nil, Nat.zero_add] at hl
    rw [List.length_append, List.length_singleton, steps]
    simp only [signThreadStep]
    rw [if_pos (by simp)]
    simp only [Option.bind_some]
    set y := UInt8.ofNat (((idx + 1) >>> (8 * (p.index_bytes - 1 - a.length))) &&& 0xff) with hy
    have e : (a ++ [x] ++ t ++ rest).set a.length y = a ++ (y :: t) ++ rest := by simp
    rw [e]
    refine ih (y :: t) (by simp; omega) ?_
    rw [ht, List.length_append, List.length_singleton]
    have hj := toByte_get (idx + 1) p.index_bytes a.length (by omega)
    obtain ⟨h1, h2⟩ := List.getElem?_eq_some_iff.mp hj
    rw [List.drop_eq_getElem_cons h1, h2]

theorem wipe_loop (idx : Nat) (sm m : Bytes) (r : Bytes) : ∀ (g : Bytes), g.length + r.length = p.sk_bytes →
    steps H p r.length (g ++ r, ⟨.wiping idx g.length, sm, m⟩) =
      some (g ++ (List.range' g.length r.length).map (fun j => if j < p.index_bytes then (0xFF : UInt8) else 0),
        ⟨.wiping idx p.sk_bytes, sm, m⟩) := by
  induction r with
  | nil => intro g hg; simp at hg; simp [steps, hg]
  | cons x r ih =>
    intro g hg
    simp only [List.length_cons] at hg
    rw [List.length_cons, steps]
    simp only [signThreadStep]
    rw [if_pos (by omega), if_pos (by simp)]
    simp only [Option.bind_some]
    set y : UInt8 := if g.length < p.index_bytes then 0xFF else 0 with hy
    have e : (g ++ x :: r).set g.length y = (g ++ [y]) ++ r := by simp
    have := ih (g ++ [y]) (by simp; omega)
    simp only [List.length_append, List.length_cons, List.length_nil, Nat.zero_add] at this
    rw [e, this, List.range'_succ]
    simp [hy]

/-! ### The parts of a call -/

theorem rest_eq (g : p.Good) (hH : ∀ x, (H x).length = p.n) (hd tl skSeed skPrf root pubSeed m post : Bytes) (idx : Nat)
    (hhd : hd.length = p.index_bytes) (h1 : skSeed.length = p.n) (h2 : skPrf.length = p.n) (h3 : root.length = p.n)
    (h4 : pubSeed.length = p.n) (hl : (hd ++ tl).length = p.sig_bytes) :
    coreSignRest H p skSeed skPrf root pubSeed (hd ++ tl ++ m ++ post) m.length idx =
      some (hd ++ ((suiteOf p H).sign skSeed skPrf root pubSeed idx m).drop p.index_bytes ++ m ++ post) := by
  have e := coreSignBody_eq g hH hd skSeed skPrf root pubSeed [] (hd ++ tl) m post idx hhd h1 h2 h3 h4 hl
  rw [coreSignBody] at e
  have e1 : hd ++ skSeed ++ skPrf ++ root ++ pubSeed ++ [] = [] ++ hd ++ (skSeed ++ skPrf ++ root ++ pubSeed) := by simp
  have e2 : hd ++ tl ++ m ++ post = [] ++ hd ++ (tl ++ m ++ post) := by simp
  rw [e1, e2, rd_append [] hd _ (off := 0) rfl hhd.symm] at e
  simp only [Option.bind_eq_bind, Option.bind_some] at e
  rw [wr_append [] hd _ hd (off := 0) rfl rfl] at e
  simp only [Option.bind_some] at e
  rw [wr_append [] hd _ _ (off := 0) rfl (by rw [ullToBytes_length, hhd]), ullToBytes_eq] at e
  simp only [Option.bind_some] at e
  set I := Rfc.toByte (idx + 1) p.index_bytes with hI
  have hIl : I.length = p.index_bytes := toByte_length _ _
  have r1 : rd ([] ++ I ++ (skSeed ++ skPrf ++ root ++ pubSeed)) p.index_bytes p.n = some skSeed := by
    rw [show [] ++ I ++ (skSeed ++ skPrf ++ root ++ pubSeed) = I ++ skSeed ++ (skPrf ++ root ++ pubSeed) by simp]
    exact rd_append _ _ _ hIl.symm h1.symm
  have r2 : rd ([] ++ I ++ (skSeed ++ skPrf ++ root ++ pubSeed)) (p.index_bytes + p.n) p.n = some skPrf := by
    rw [show [] ++ I ++ (skSeed ++ skPrf ++ root ++ pubSeed) = (I ++ skSeed) ++ skPrf ++ (root ++ pubSeed) by simp]
    exact rd_append _ _ _ (by simp [hIl, h1]) h2.symm
  have r3 : rd ([] ++ I ++ (skSeed ++ skPrf ++ root ++ pubSeed)) (p.index_bytes + 2 * p.n) p.n = some root := by
    rw [show [] ++ I ++ (skSeed ++ skPrf ++ root ++ pubSeed) = (I ++ skSeed ++ skPrf) ++ root ++ pubSeed by simp]
    exact rd_append _ _ _ (by simp [hIl, h1, h2]; omega) h3.symm
  have r4 : rd ([] ++ I ++ (skSeed ++ skPrf ++ root ++ pubSeed)) (p.index_bytes + 3 * p.n) p.n = some pubSeed := by
    rw [show [] ++ I ++ (skSeed ++ skPrf ++ root ++ pubSeed) = (I ++ skSeed ++ skPrf ++ root) ++ pubSeed ++ [] by simp]
    exact rd_append _ _ _ (by simp [hIl, h1, h2, h3]; omega) h4.symm
  rw [r1, r2, r3, r4] at e
  simp only [Option.bind_some] at e
  rw [e2, coreSignRest]
  simp only [Option.bind_eq_bind]
  cases hw : wr ([] ++ hd ++ (tl ++ m ++ post)) p.index_bytes (prf H p (ullToBytes 32 idx) skPrf) with
  | none => rw [hw] at e; simp at e
  | some sm =>
    rw [hw] at e
    simp only [Option.bind_some] at e ⊢
    cases hr : rd sm p.index_bytes p.n with
    | none => rw [hr] at e; simp at e
    | some R =>
      rw [hr] at e
      simp only [Option.bind_some] at e ⊢
      have hfit := g.prefix_fits
      rw [if_neg (by omega)] at e ⊢
      cases hh : hashMessage H p R root idx sm (p.sig_bytes - p.padding_len - 3 * p.n) m.length with
      | none => rw [hh] at e; simp at e
      | some hm =>
        rw [hh] at e
        simp only [Option.bind_some] at e ⊢
        cases hs : signLayers H p skSeed pubSeed p.d 0 idx (setType Addr.zero typeOts) hm.1 hm.2 (p.index_bytes + p.n) with
        | none => rw [hs] at e; simp at e
        | some sm' =>
          rw [hs] at e
          simp only [Option.bind_some, Option.some.injEq, SignOut.mk.injEq] at e
          rw [e.2.2.1]

/-- Lines 204-209: the message is copied and the index is read. -/
theorem start_phase (ib rest sm0 old post m : Bytes) (hib : ib.length = p.index_bytes)
    (hsm : sm0.length = p.sig_bytes) (hold : old.length = m.length) :
    steps H p (p.index_bytes + 1) (ib ++ rest, ⟨.start, sm0 ++ old ++ post, m⟩) =
      some (ib ++ rest, ⟨.reading ib, sm0 ++ m ++ post, m⟩) := by
  have s1 : steps H p 1 (ib ++ rest, ⟨.start, sm0 ++ old ++ post, m⟩) = some (ib ++ rest, ⟨.reading [], sm0 ++ m ++ post, m⟩) := by
    apply steps_one
    simp only [signThreadStep]
    rw [wr_append sm0 old post m hsm.symm hold.symm]
    rfl
  have s2 := read_loop (H := H) (p := p) ib [] rest (sm0 ++ m ++ post) m (by simpa using hib)
  simp only [List.nil_append] at s2
  have := steps_add s1 s2
  rwa [hib, Nat.add_comm] at this

/-- Lines 204-233 while there are indices left: the index is read and copied into the signature; the key is as before. -/
theorem read_phase (g : p.Good) (ib rest sm0 old post m : Bytes) (hib : ib.length = p.index_bytes)
    (hsm : sm0.length = p.sig_bytes) (hold : old.length = m.length) (hlt : Rfc.toNat ib < 2 ^ p.full_height - 1) :
    steps H p (2 * p.index_bytes + 3) (ib ++ rest, ⟨.start, sm0 ++ old ++ post, m⟩) =
      some (ib ++ rest, ⟨.writing (Rfc.toNat ib) p.index_bytes, ib ++ sm0.drop p.index_bytes ++ m ++ post, m⟩) := by
  have hfh := g.fh_lt
  have s1 := start_phase (H := H) ib rest sm0 old post m hib hsm hold
  have s2 : steps H p 1 (ib ++ rest, ⟨.reading ib, sm0 ++ m ++ post, m⟩) =
      some (ib ++ rest, ⟨.copying (Rfc.toNat ib) 0, sm0 ++ m ++ post, m⟩) := by
    apply steps_one
    simp only [signThreadStep]
    rw [if_neg (by omega), bytesToUll_eq (by rw [hib]; exact g.idx_le)]
    simp only [Option.bind_eq_bind, Option.bind_some]
    rw [if_neg (by omega), if_neg (by omega)]
  have hle : p.index_bytes ≤ p.sig_bytes := by have := g.sig_eq; omega
  have s3 := copy_loop (H := H) (p := p) (Rfc.toNat ib) ib [] rest [] (sm0.take p.index_bytes) (sm0.drop p.index_bytes ++ m ++ post) m
    (by simpa using hib) rfl (by simp; omega)
  have e : [] ++ sm0.take p.index_bytes ++ (sm0.drop p.index_bytes ++ m ++ post) = sm0 ++ m ++ post := by
    simp only [List.nil_append, ← List.append_assoc, List.take_append_drop]
  rw [e] at s3
  simp only [List.nil_append, List.length_nil, Nat.zero_add, hib] at s3
  have s4 : steps H p 1 (ib ++ rest, ⟨.copying (Rfc.toNat ib) p.index_bytes, ib ++ (sm0.drop p.index_bytes ++ m ++ post), m⟩) =
      some (ib ++ rest, ⟨.writing (Rfc.toNat ib) p.index_bytes, ib ++ sm0.drop p.index_bytes ++ m ++ post, m⟩) := by
    apply steps_one
    simp only [signThreadStep]
    rw [if_neg (by omega)]
    simp only [List.append_assoc]
  have := steps_add (steps_add (steps_add s1 s2) s3) s4
  rwa [show p.index_bytes + 1 + 1 + p.index_bytes + 1 = 2 * p.index_bytes + 3 by omega] at this

/-- Lines 239-272: the next index is written and the signature computed, with the index the thread has read. -/
theorem write_phase' (g : p.Good) (hH : ∀ x, (H x).length = p.n) (a t skSeed skPrf root pubSeed hd tl m post : Bytes) (idx : Nat)
    (hat : a.length + t.length = p.index_bytes) (ht : t = (Rfc.toByte (idx + 1) p.index_bytes).drop a.length)
    (hhd : hd.length = p.index_bytes) (h1 : skSeed.length = p.n) (h2 : skPrf.length = p.n)
    (h3 : root.length = p.n) (h4 : pubSeed.length = p.n) (hl : (hd ++ tl).length = p.sig_bytes) :
    steps H p (a.length + 2)
      (a ++ t ++ (skSeed ++ skPrf ++ root ++ pubSeed), ⟨.writing idx a.length, hd ++ tl ++ m ++ post, m⟩) =
      some (Rfc.toByte (idx + 1) p.index_bytes ++ (skSeed ++ skPrf ++ root ++ pubSeed),
        ⟨.done 0, hd ++ ((suiteOf p H).sign skSeed skPrf root pubSeed idx m).drop p.index_bytes ++ m ++ post, m⟩) := by
  have s1 := write_loop (H := H) (p := p) idx (hd ++ tl ++ m ++ post) m (skSeed ++ skPrf ++ root ++ pubSeed) a t hat ht
  set I := Rfc.toByte (idx + 1) p.index_bytes with hI
  have hIl : I.length = p.index_bytes := toByte_length _ _
  have s2 : steps H p 1 (I ++ (skSeed ++ skPrf ++ root ++ pubSeed), ⟨.writing idx 0, hd ++ tl ++ m ++ post, m⟩) =
      some (I ++ (skSeed ++ skPrf ++ root ++ pubSeed), ⟨.signing idx, hd ++ tl ++ m ++ post, m⟩) := steps_one rfl
  have r1 : rd (I ++ (skSeed ++ skPrf ++ root ++ pubSeed)) p.index_bytes p.n = some skSeed := by
    rw [show I ++ (skSeed ++ skPrf ++ root ++ pubSeed) = I ++ skSeed ++ (skPrf ++ root ++ pubSeed) by simp]
    exact rd_append _ _ _ hIl.symm h1.symm
  have r2 : rd (I ++ (skSeed ++ skPrf ++ root ++ pubSeed)) (p.index_bytes + p.n) p.n = some skPrf := by
    rw [show I ++ (skSeed ++ skPrf ++ root ++ pubSeed) = (I ++ skSeed) ++ skPrf ++ (root ++ pubSeed) by simp]
    exact rd_append _ _ _ (by simp [hIl, h1]) h2.symm
  have r3 : rd (I ++ (skSeed ++ skPrf ++ root ++ pubSeed)) (p.index_bytes + 2 * p.n) p.n = some root := by
    rw [show I ++ (skSeed ++ skPrf ++ root ++ pubSeed) = (I ++ skSeed ++ skPrf) ++ root ++ pubSeed by simp]
    exact rd_append _ _ _ (by simp [hIl, h1, h2]; omega) h3.symm
  have r4 : rd (I ++ (skSeed ++ skPrf ++ root ++ pubSeed)) (p.index_bytes + 3 * p.n) p.n = some pubSeed := by
    rw [show I ++ (skSeed ++ skPrf ++ root ++ pubSeed) = (I ++ skSeed ++ skPrf ++ root) ++ pubSeed ++ [] by simp]
    exact rd_append _ _ _ (by simp [hIl, h1, h2, h3]; omega) h4.symm
  have s3 : steps H p 1 (I ++ (skSeed ++ skPrf ++ root ++ pubSeed), ⟨.signing idx, hd ++ tl ++ m ++ post, m⟩) =
      some (I ++ (skSeed ++ skPrf ++ root ++ pubSeed), ⟨.done 0, hd ++ ((suiteOf p H).sign skSeed skPrf root pubSeed idx m).drop
        p.index_bytes ++ m ++ post, m⟩) := by
    apply steps_one
    simp only [signThreadStep]
    rw [r1, r2, r3, r4]
    simp only [Option.bind_eq_bind, Option.bind_some]
    rw [rest_eq g hH hd tl skSeed skPrf root pubSeed m post idx hhd h1 h2 h3 h4 hl]
    rfl
  have s4 := steps_add (steps_add s1 s2) s3
  rwa [Nat.add_assoc] at s4

theorem write_phase (g : p.Good) (hH : ∀ x, (H x).length = p.n) (ib skSeed skPrf root pubSeed hd tl m post : Bytes) (idx : Nat)
    (hib : ib.length = p.index_bytes) (hhd : hd.length = p.index_bytes) (h1 : skSeed.length = p.n) (h2 : skPrf.length = p.n)
    (h3 : root.length = p.n) (h4 : pubSeed.length = p.n) (hl : (hd ++ tl).length = p.sig_bytes) :
    steps H p (p.index_bytes + 2)
      (ib ++ (skSeed ++ skPrf ++ root ++ pubSeed), ⟨.writing idx p.index_bytes, hd ++ tl ++ m ++ post, m⟩) =
      some (Rfc.toByte (idx + 1) p.index_bytes ++ (skSeed ++ skPrf ++ root ++ pubSeed),
        ⟨.done 0, hd ++ ((suiteOf p H).sign skSeed skPrf root pubSeed idx m).drop p.index_bytes ++ m ++ post, m⟩) := by
  have := write_phase' g hH ib [] skSeed skPrf root pubSeed hd tl m post idx (by simpa using hib)
    (by rw [hib, List.drop_of_length_le (by rw [toByte_length])]) hhd h1 h2 h3 h4 hl
  simpa only [List.append_nil, hib] using this

/-- The bytes of the deleted key. -/
theorem wiped (hsk : p.sk_bytes = p.index_bytes + 4 * p.n) :
    (List.range' 0 p.sk_bytes).map (fun j => if j < p.index_bytes then (0xFF : UInt8) else 0) =
      List.replicate p.index_bytes 0xFF ++ List.replicate (4 * p.n) 0 := by
  apply List.ext_getElem
  · simp [hsk]
  · intro i h1 h2
    simp only [List.getElem_map, List.getElem_range', Nat.zero_add, Nat.one_mul, List.getElem_append, List.length_replicate,
      List.getElem_replicate]
    split <;> rfl

theorem replicate4 (n : Nat) : List.replicate (4 * n) (0 : UInt8) =
    List.replicate n 0 ++ List.replicate n 0 ++ List.replicate n 0 ++ List.replicate n 0 := by
  simp only [List.replicate_append_replicate]
  congr 1; omega

/-- A thread that is not interrupted does what `coreSign` does. -/
theorem alone (g : p.Good) (hsk : p.sk_bytes = p.index_bytes + 4 * p.n) (hH : ∀ x, (H x).length = p.n) (sk sm m : Bytes)
    (hskl : sk.length = p.sk_bytes) (hsm : p.sig_bytes + m.length ≤ sm.length) (k : Nat)
    (hk : 3 * p.index_bytes + p.sk_bytes + 7 ≤ k) :
    ∃ o, coreSign H p sk sm m = some o ∧ o.sk.length = p.sk_bytes ∧
      steps H p k (sk, ⟨.start, sm, m⟩) = some (o.sk, ⟨.done o.ret, o.sm, m⟩) := by
  obtain ⟨ib, a, b, c, d, rfl, hib, h1, h2, h3, h4⟩ : ∃ ib a b c d : Bytes, sk = ib ++ a ++ b ++ c ++ d ∧
      ib.length = p.index_bytes ∧ a.length = p.n ∧ b.length = p.n ∧ c.length = p.n ∧ d.length = p.n := by
    refine ⟨sk.take p.index_bytes, (sk.drop p.index_bytes).take p.n, (sk.drop (p.index_bytes + p.n)).take p.n,
      (sk.drop (p.index_bytes + p.n + p.n)).take p.n, sk.drop (p.index_bytes + p.n + p.n + p.n), ?_, ?_, ?_, ?_, ?_, ?_⟩
    · rw [← List.take_add, ← List.take_add, ← List.take_add, List.take_append_drop]
    all_goals simp; omega
  obtain ⟨sm0, old, post, rfl, hsm0, hold⟩ : ∃ sm0 old post : Bytes, sm = sm0 ++ old ++ post ∧ sm0.length = p.sig_bytes ∧
      old.length = m.length := by
    refine ⟨sm.take p.sig_bytes, (sm.drop p.sig_bytes).take m.length, sm.drop (p.sig_bytes + m.length), ?_, ?_, ?_⟩
    · rw [← List.take_add, List.take_append_drop]
    all_goals simp; omega
  have hle : p.index_bytes ≤ p.sig_bytes := by have := g.sig_eq; omega
  have hfh := g.fh_lt
  refine ⟨_, coreSign_eq g hsk hH ib a b c d sm0 m old post hib h1 h2 h3 h4 hsm0 hold, ?_, ?_⟩
  · split
    · simp [toByte_length, h1, h2, h3, h4]; omega
    · split
      · simp [toByte_length]; omega
      · simp; omega
  have finish : ∀ {n : Nat} {w : Bytes × SignThread} {sk' sm' : Bytes} {r : Int}, n ≤ k →
      steps H p n w = some (sk', ⟨.done r, sm', m⟩) → steps H p k w = some (sk', ⟨.done r, sm', m⟩) := by
    intro n w sk' sm' r hn h
    have := steps_add h (steps_done (H := H) (p := p) (k - n) sk' sm' m r)
    rwa [Nat.add_sub_cancel' hn] at this
  have eK : ib ++ a ++ b ++ c ++ d = ib ++ (a ++ b ++ c ++ d) := by simp
  rw [eK]
  by_cases hlt : Rfc.toNat ib < 2 ^ p.full_height - 1
  · simp only [if_pos hlt]
    have s1 := read_phase (H := H) g ib (a ++ b ++ c ++ d) sm0 old post m hib hsm0 hold hlt
    have s2 := write_phase g hH ib a b c d ib (sm0.drop p.index_bytes) m post (Rfc.toNat ib) hib hib h1 h2 h3 h4
      (by simp; omega)
    refine (finish (by omega) (steps_add s1 s2)).trans ?_
    have hs : ib ++ ((suiteOf p H).sign a b c d (Rfc.toNat ib) m).drop p.index_bytes =
        (suiteOf p H).sign a b c d (Rfc.toNat ib) m := by
      conv_rhs => rw [← List.take_append_drop p.index_bytes ((suiteOf p H).sign a b c d (Rfc.toNat ib) m)]
      congr 1
      simp only [Rfc.Suite.sign]
      rw [List.append_assoc, List.take_append_of_le_length (by rw [toByte_length]; exact Nat.le_refl _)]
      have : (suiteOf p H).idxLen = ib.length := hib.symm
      rw [this, toByte_toNat, List.take_of_length_le (by omega)]
    rw [hs]
    simp only [List.append_assoc]
  · simp only [if_neg hlt]
    have s1 := start_phase (H := H) ib (a ++ b ++ c ++ d) sm0 old post m hib hsm0 hold
    have s2 : steps H p 1 (ib ++ (a ++ b ++ c ++ d), ⟨.reading ib, sm0 ++ m ++ post, m⟩) =
        some (ib ++ (a ++ b ++ c ++ d), ⟨.wiping (Rfc.toNat ib) 0, sm0 ++ m ++ post, m⟩) := by
      apply steps_one
      simp only [signThreadStep]
      rw [if_neg (by omega), bytesToUll_eq (by rw [hib]; exact g.idx_le)]
      simp only [Option.bind_eq_bind, Option.bind_some]
      rw [if_neg (by omega), if_pos (by omega)]
    have hlen : (ib ++ (a ++ b ++ c ++ d)).length = p.sk_bytes := by simp [hib, h1, h2, h3, h4]; omega
    have s3 := wipe_loop (H := H) (p := p) (Rfc.toNat ib) (sm0 ++ m ++ post) m (ib ++ (a ++ b ++ c ++ d)) []
      (by simpa using hlen)
    simp only [List.nil_append, List.length_nil, hlen, wiped hsk] at s3
    set F := List.replicate p.index_bytes (0xFF : UInt8) with hF
    have hFl : F.length = p.index_bytes := by simp [hF]
    set Z := List.replicate (4 * p.n) (0 : UInt8) with hZ
    have s123 := steps_add (steps_add s1 s2) s3
    by_cases heq : Rfc.toNat ib = 2 ^ p.full_height - 1
    · simp only [if_pos heq]
      rw [heq] at s123
      have s4 : steps H p 1 (F ++ Z, ⟨.wiping (2 ^ p.full_height - 1) p.sk_bytes, sm0 ++ m ++ post, m⟩) =
          some (F ++ Z, ⟨.copying (2 ^ p.full_height - 1) 0, sm0 ++ m ++ post, m⟩) := by
        apply steps_one
        simp only [signThreadStep]
        rw [if_neg (by omega), if_neg (by omega)]
      have s5 := copy_loop (H := H) (p := p) (2 ^ p.full_height - 1) F [] Z [] (sm0.take p.index_bytes)
        (sm0.drop p.index_bytes ++ m ++ post) m (by simpa using hFl) rfl (by simp [hFl]; omega)
      have e : [] ++ sm0.take p.index_bytes ++ (sm0.drop p.index_bytes ++ m ++ post) = sm0 ++ m ++ post := by
        simp only [List.nil_append, ← List.append_assoc, List.take_append_drop]
      rw [e] at s5
      simp only [List.nil_append, List.length_nil, Nat.zero_add, hFl] at s5
      have s6 : steps H p 1 (F ++ Z, ⟨.copying (2 ^ p.full_height - 1) p.index_bytes, F ++ (sm0.drop p.index_bytes ++ m ++ post), m⟩) =
          some (F ++ Z, ⟨.writing (2 ^ p.full_height - 1) p.index_bytes, F ++ sm0.drop p.index_bytes ++ m ++ post, m⟩) := by
        apply steps_one
        simp only [signThreadStep]
        rw [if_neg (by omega)]
        simp only [List.append_assoc]
      have s7 := write_phase g hH F (List.replicate p.n 0) (List.replicate p.n 0) (List.replicate p.n 0) (List.replicate p.n 0)
        F (sm0.drop p.index_bytes) m post (2 ^ p.full_height - 1) hFl hFl (by simp) (by simp) (by simp) (by simp) (by simp [hFl]; omega)
      rw [← replicate4] at s7
      refine (finish ?_ (steps_add (steps_add (steps_add (steps_add s123 s4) s5) s6) s7)).trans ?_
      · omega
      · rw [heq, replicate4]
        simp only [List.append_assoc]
    · simp only [if_neg heq]
      have s4 : steps H p 1 (F ++ Z, ⟨.wiping (Rfc.toNat ib) p.sk_bytes, sm0 ++ m ++ post, m⟩) =
          some (F ++ Z, ⟨.done (-2), sm0 ++ m ++ post, m⟩) := by
        apply steps_one
        simp only [signThreadStep]
        rw [if_neg (by omega), if_pos (by omega)]
      exact finish (by omega) (steps_add s123 s4)

/-! ### Two threads -/

/-- Both threads read the index before either writes it. -/
def raceSched (p : Params) : List Nat :=
  List.replicate (2 * p.index_bytes + 3) 0 ++ List.replicate (2 * p.index_bytes + 3) 1 ++
    List.replicate (p.index_bytes + 2) 0 ++ List.replicate (p.index_bytes + 2) 1

/-- The second thread reads the index when the first has written one byte of it; the first finishes, then the second. -/
def tornSched (p : Params) : List Nat :=
  List.replicate (2 * p.index_bytes + 3) 0 ++ [0] ++ List.replicate (2 * p.index_bytes + 3) 1 ++
    List.replicate (p.index_bytes + 1) 0 ++ List.replicate (p.index_bytes + 2) 1

theorem sign_split (k : Key) (idx : Nat) (m : Bytes) :
    Rfc.toByte idx p.index_bytes ++ ((suiteOf p H).sign k.skSeed k.skPrf k.root k.pubSeed idx m).drop p.index_bytes =
      (suiteOf p H).sign k.skSeed k.skPrf k.root k.pubSeed idx m := by
  simp only [Rfc.Suite.sign, List.append_assoc]
  rw [show (suiteOf p H).idxLen = p.index_bytes from rfl, List.drop_left' (toByte_length _ _)]

/-- The part of the secret key after the OID. -/
def body (k : Key) (p : Params) (idx : Nat) : Bytes :=
  Rfc.toByte idx p.index_bytes ++ (k.skSeed ++ k.skPrf ++ k.root ++ k.pubSeed)

theorem sk_drop (k : Key) (oid idx : Nat) : (k.sk p oid idx).drop 4 = body k p idx := by
  rw [Key.sk, List.drop_left' (toByte_length _ _), body]
  simp only [List.append_assoc]

theorem sm_split {p : Params} {sm m : Bytes} (h : sm.length = p.sig_bytes + m.length) :
    ∃ a b : Bytes, sm = a ++ b ++ [] ∧ a.length = p.sig_bytes ∧ b.length = m.length :=
  ⟨sm.take p.sig_bytes, sm.drop p.sig_bytes, by rw [List.append_nil, List.take_append_drop], by simp; omega, by simp; omega⟩

theorem read_thread (g : p.Good) (k : Key) (idx : Nat) (hidx : idx < 2 ^ p.full_height - 1) (a b m : Bytes)
    (ha : a.length = p.sig_bytes) (hb : b.length = m.length) :
    steps H p (2 * p.index_bytes + 3) (body k p idx, ⟨.start, a ++ b ++ [], m⟩) =
      some (body k p idx, ⟨.writing idx p.index_bytes, Rfc.toByte idx p.index_bytes ++ a.drop p.index_bytes ++ m ++ [], m⟩) := by
  have hi := g.idx_fits
  have en : Rfc.toNat (Rfc.toByte idx p.index_bytes) = idx := by rw [toNat_toByte, Nat.mod_eq_of_lt (by omega)]
  have := read_phase (H := H) g (Rfc.toByte idx p.index_bytes) (k.skSeed ++ k.skPrf ++ k.root ++ k.pubSeed) a b [] m
    (toByte_length _ _) ha hb (by rw [en]; exact hidx)
  rwa [en] at this

theorem write_thread (g : p.Good) (hH : ∀ x, (H x).length = p.n) (k : Key) (hk : k.Valid p) (cur idx : Nat) (a m : Bytes)
    (ha : a.length = p.sig_bytes) :
    steps H p (p.index_bytes + 2) (body k p cur,
      ⟨.writing idx p.index_bytes, Rfc.toByte idx p.index_bytes ++ a.drop p.index_bytes ++ m ++ [], m⟩) =
      some (body k p (idx + 1), ⟨.done 0, (suiteOf p H).sign k.skSeed k.skPrf k.root k.pubSeed idx m ++ m, m⟩) := by
  have hle : p.index_bytes ≤ p.sig_bytes := by have := g.sig_eq; omega
  have := write_phase g hH (Rfc.toByte cur p.index_bytes) k.skSeed k.skPrf k.root k.pubSeed (Rfc.toByte idx p.index_bytes)
    (a.drop p.index_bytes) m [] idx (toByte_length _ _) (toByte_length _ _) hk.skSeed hk.skPrf hk.root hk.pubSeed
    (by simp [toByte_length]; omega)
  rw [sign_split] at this
  simpa only [List.append_nil, body] using this

theorem race (g : p.Good) (hH : ∀ x, (H x).length = p.n) (k : Key) (hk : k.Valid p) (idx : Nat)
    (hidx : idx < 2 ^ p.full_height - 1) (sm1 m1 sm2 m2 : Bytes) (h1 : sm1.length = p.sig_bytes + m1.length)
    (h2 : sm2.length = p.sig_bytes + m2.length) :
    let sig := (suiteOf p H).sign k.skSeed k.skPrf k.root k.pubSeed idx
    signThreads H p (raceSched p) (body k p idx, [⟨.start, sm1, m1⟩, ⟨.start, sm2, m2⟩]) =
      some (body k p (idx + 1), [⟨.done 0, sig m1 ++ m1, m1⟩, ⟨.done 0, sig m2 ++ m2, m2⟩]) := by
  intro sig
  obtain ⟨a1, b1, rfl, ha1, hb1⟩ := sm_split h1
  obtain ⟨a2, b2, rfl, ha2, hb2⟩ := sm_split h2
  have r1 := read_thread (H := H) g k idx hidx a1 b1 m1 ha1 hb1
  have r2 := read_thread (H := H) g k idx hidx a2 b2 m2 ha2 hb2
  have w1 := write_thread g hH k hk idx idx a1 m1 ha1
  have w2 := write_thread g hH k hk (idx + 1) idx a2 m2 ha2
  rw [raceSched, run_append, run_append, run_append, run_block (i := 0) rfl r1]
  simp only [Option.bind_some]
  rw [run_block (i := 1) rfl r2]
  simp only [Option.bind_some]
  rw [run_block (i := 0) rfl w1]
  simp only [Option.bind_some]
  rw [run_block (i := 1) rfl w2]
  rfl

theorem torn (g : p.Good) (hH : ∀ x, (H x).length = p.n) (k : Key) (hk : k.Valid p) (idx : Nat)
    (hidx : idx < 2 ^ p.full_height - 1) (hmod : idx % 256 = 255) (sm1 m1 sm2 m2 : Bytes)
    (h1 : sm1.length = p.sig_bytes + m1.length) (h2 : sm2.length = p.sig_bytes + m2.length) :
    let sig := (suiteOf p H).sign k.skSeed k.skPrf k.root k.pubSeed
    signThreads H p (tornSched p) (body k p idx, [⟨.start, sm1, m1⟩, ⟨.start, sm2, m2⟩]) =
      some (body k p (idx - 254), [⟨.done 0, sig idx m1 ++ m1, m1⟩, ⟨.done 0, sig (idx - 255) m2 ++ m2, m2⟩]) := by
  intro sig
  obtain ⟨a1, b1, rfl, ha1, hb1⟩ := sm_split h1
  obtain ⟨a2, b2, rfl, ha2, hb2⟩ := sm_split h2
  have hle : p.index_bytes ≤ p.sig_bytes := by have := g.sig_eq; omega
  have hi := g.idx_fits
  obtain ⟨j, hj⟩ : ∃ j, p.index_bytes = j + 1 := by
    cases h : p.index_bytes with
    | zero => rw [h] at hi; simp at hi; omega
    | succ j => exact ⟨j, rfl⟩
  have r1 := read_thread (H := H) g k idx hidx a1 b1 m1 ha1 hb1
  -- one byte is written
  have e0 : ∀ x : Nat, body k p x = Rfc.toByte (x / 256) j ++ ([UInt8.ofNat x] ++ (k.skSeed ++ k.skPrf ++ k.root ++ k.pubSeed)) := by
    intro x; rw [body, hj, toByte_succ, List.append_assoc]
  have eb : UInt8.ofNat (idx + 1) = UInt8.ofNat (idx - 255) := by
    apply UInt8.toNat_inj.mp
    simp only [UInt8.toNat_ofNat']
    omega
  have ed : (idx - 255) / 256 = idx / 256 := by omega
  have b1' : steps H p 1 (body k p idx,
      ⟨.writing idx p.index_bytes, Rfc.toByte idx p.index_bytes ++ a1.drop p.index_bytes ++ m1 ++ [], m1⟩) =
      some (body k p (idx - 255), ⟨.writing idx j, Rfc.toByte idx p.index_bytes ++ a1.drop p.index_bytes ++ m1 ++ [], m1⟩) := by
    apply steps_one
    have hl : j < (body k p idx).length := by rw [e0]; simp [toByte_length]
    have hset : (body k p idx).set j (UInt8.ofNat (((idx + 1) >>> (8 * (p.index_bytes - 1 - j))) &&& 0xff)) = body k p (idx - 255) := by
      rw [UInt8_ofNat_and, hj, Nat.add_sub_cancel, Nat.sub_self, Nat.mul_zero, Nat.shiftRight_zero, eb, e0, e0, ed,
        List.set_append_right _ _ (by rw [toByte_length]), toByte_length, Nat.sub_self]
      rfl
    conv_lhs => rw [show SignPc.writing idx p.index_bytes = SignPc.writing idx (j + 1) by rw [hj]]
    simp only [signThreadStep]
    rw [if_pos hl, hset]
  have r2 := read_thread (H := H) g k (idx - 255) (by omega) a2 b2 m2 ha2 hb2
  have w1 := write_phase' g hH (Rfc.toByte (idx / 256) j) [UInt8.ofNat (idx - 255)] k.skSeed k.skPrf k.root k.pubSeed
    (Rfc.toByte idx p.index_bytes) (a1.drop p.index_bytes) m1 [] idx (by simp [toByte_length, hj])
    (by rw [hj, toByte_succ, eb, toByte_length, List.drop_left' (toByte_length _ _)]) (toByte_length _ _)
    hk.skSeed hk.skPrf hk.root hk.pubSeed (by simp [toByte_length]; omega)
  have w1' : steps H p (p.index_bytes + 1) (body k p (idx - 255),
      ⟨.writing idx j, Rfc.toByte idx p.index_bytes ++ a1.drop p.index_bytes ++ m1 ++ [], m1⟩) =
      some (body k p (idx + 1), ⟨.done 0, sig idx m1 ++ m1, m1⟩) := by
    rw [sign_split, List.append_nil, toByte_length] at w1
    rw [e0, ed, show p.index_bytes + 1 = j + 2 by omega, ← List.append_assoc]
    simp only [List.append_nil] at w1 ⊢
    exact w1
  have w2 := write_thread g hH k hk (idx + 1) (idx - 255) a2 m2 ha2
  rw [show idx - 255 + 1 = idx - 254 by omega] at w2
  rw [tornSched, run_append, run_append, run_append, run_append, run_block (i := 0) rfl r1]
  simp only [Option.bind_some]
  rw [show [0] = List.replicate 1 0 from rfl, run_block (i := 0) rfl b1']
  simp only [Option.bind_some]
  rw [run_block (i := 1) rfl r2]
  simp only [Option.bind_some]
  rw [run_block (i := 0) rfl w1']
  simp only [Option.bind_some]
  rw [run_block (i := 1) rfl w2]
  rfl

/-! ### Serial execution -/

/-- The key bytes after a history. -/
def keyAfter (sk : Bytes) (outs : List SignOut) : Bytes := (outs.getLast?.map SignOut.sk).getD sk

theorem keyAfter_cons (sk : Bytes) (o : SignOut) (outs : List SignOut) : keyAfter sk (o :: outs) = keyAfter o.sk outs := by
  cases outs with
  | nil => rfl
  | cons o' outs => simp [keyAfter, List.getLast?_cons_cons, List.getLast?_eq_getLast_of_ne_nil]

theorem keyAfter_history (hp : f.parse oid = some p) (hH : coreHash P p.func p.n = some H) (k : Key) (hk : k.Valid p)
    (cs : List Call) (hcs : Sized p cs) (hlen : cs.length ≤ 2 ^ p.full_height - 1) :
    ∃ outs, signAll P f (k.sk p oid 0) cs = some outs ∧ outs.length = cs.length ∧
      keyAfter (k.sk p oid 0) outs = k.sk p oid cs.length ∧
      ∀ j o, outs[j]? = some o → ∃ c, cs[j]? = some c ∧ o.ret = 0 ∧
        o.sm = (suiteOf p H).sign k.skSeed k.skPrf k.root k.pubSeed j c.msg ++ c.msg := by
  refine ⟨_, signAll_eq hp hH cs 0 k hk (by positivity) hcs, by simp, ?_, ?_⟩
  · cases cs using List.reverseRecOn with
    | nil => rfl
    | append_singleton cs c =>
      simp only [List.length_append, List.length_singleton] at hlen
      rw [keyAfter, List.mapIdx_append]
      simp [stateAfter_lt _ (show cs.length ≤ 2 ^ p.full_height - 1 by omega), outcome, nextKey, nextIdx, show cs.length < 2 ^ p.full_height - 1 by omega]
  · intro j o ho
    rw [List.getElem?_mapIdx] at ho
    cases hc : cs[j]? with
    | none => simp [hc] at ho
    | some c =>
      have hj : j < cs.length := (List.getElem?_eq_some_iff.mp hc).1
      simp only [hc, Option.map_some, Option.some.injEq] at ho
      refine ⟨c, rfl, ?_⟩
      rw [← ho, stateAfter_lt _ (by omega)]
      simp only [outcome, if_pos (show j < 2 ^ p.full_height - 1 by omega), if_pos (show j < 2 ^ p.full_height by omega)]
      exact ⟨trivial, trivial⟩

/-- `xmss_sign` / `xmssmt_sign` with the core function run as a thread. -/
theorem api_alone (hp : f.parse oid = some p) (hH : coreHash P p.func p.n = some H) (sk sm : Bytes) (l0 : Nat) (m : Bytes)
    (hsk : sk.length = 4 + p.sk_bytes) (ho : readOid sk = some oid) (hsm : p.sig_bytes + m.length ≤ sm.length) (k : Nat)
    (hk : 3 * p.index_bytes + p.sk_bytes + 7 ≤ k) :
    ∃ o, f.sign P sk sm l0 m = some o ∧ o.sk.length = 4 + p.sk_bytes ∧ readOid o.sk = some oid ∧
      steps H p k (sk.drop 4, ⟨.start, sm, m⟩) = some (o.sk.drop 4, ⟨.done o.ret, o.sm, m⟩) := by
  obtain ⟨g, hskb, _, _⟩ := Family.facts (P := P) hp
  have hHl := Family.hash_length hp hH
  obtain ⟨o, h1, h2, h3⟩ := alone g hskb hHl (sk.drop 4) sm m (by simp [hsk]) hsm k hk
  have ht : (sk.take 4).length = 4 := by simp; omega
  refine ⟨{ o with sk := sk.take 4 ++ o.sk }, ?_, by simp [h2]; omega, ?_, ?_⟩
  · rw [Family.sign_eq, apiSign, ho]
    simp only [Option.bind_eq_bind, Option.bind_some, hp, hH]
    rw [show oidLen = 4 from rfl, h1]
    rfl
  · rw [← ho, readOid, readOid]
    have e : rd (sk.take 4 ++ o.sk) 0 4 = rd sk 0 4 := by
      have e1 := rd_append [] (sk.take 4) o.sk (off := 0) (len := 4) rfl ht.symm
      have e2 := rd_append [] (sk.take 4) (sk.drop 4) (off := 0) (len := 4) rfl ht.symm
      simp only [List.nil_append, List.take_append_drop] at e1 e2
      rw [e1, e2]
    rw [e]
  · simp only
    rw [h3, List.drop_left' ht]

theorem serial (hp : f.parse oid = some p) (hH : coreHash P p.func p.n = some H) (calls : List Call) (hc : Sized p calls)
    (len : Nat → Nat) (hlen : ∀ i, 3 * p.index_bytes + p.sk_bytes + 7 ≤ len i) :
    ∀ (order : List Nat) (sk : Bytes) (ts : List SignThread), sk.length = 4 + p.sk_bytes → readOid sk = some oid → order.Nodup →
      (∀ i ∈ order, ∃ c, calls[i]? = some c ∧ ts[i]? = some ⟨.start, c.sm, c.msg⟩) →
    ∃ outs ts', signAll P f sk (order.filterMap (calls[·]?)) = some outs ∧ outs.length = order.length ∧
      signThreads H p (order.flatMap fun i => List.replicate (len i) i) (sk.drop 4, ts) =
        some ((keyAfter sk outs).drop 4, ts') ∧ (∀ i, i ∉ order → ts'[i]? = ts[i]?) ∧
      ∀ (j i : Nat), order[j]? = some i → ∃ o c, outs[j]? = some o ∧ calls[i]? = some c ∧
        ts'[i]? = some ⟨.done o.ret, o.sm, c.msg⟩ := by
  intro order
  induction order with
  | nil =>
    intro sk ts _ _ _ _
    exact ⟨[], ts, rfl, rfl, rfl, fun _ _ => rfl, fun j i h => by simp at h⟩
  | cons i order ih =>
    intro sk ts hsk ho hnd hts
    obtain ⟨c, hci, hti⟩ := hts i (by simp)
    have hcs := hc c (List.mem_of_getElem? hci)
    obtain ⟨o, s1, s2, s3, s4⟩ := api_alone (f := f) hp hH sk c.sm c.smlen0 c.msg hsk ho hcs.ge (len i) (hlen i)
    obtain ⟨hni, hnd'⟩ := List.nodup_cons.mp hnd
    obtain ⟨outs, ts', t1, t2, t3, t4, t5⟩ := ih o.sk (ts.set i ⟨.done o.ret, o.sm, c.msg⟩) s2 s3 hnd' (by
      intro i' hi'
      obtain ⟨c', h1, h2⟩ := hts i' (by simp [hi'])
      refine ⟨c', h1, ?_⟩
      rw [List.getElem?_set_ne (by rintro rfl; exact hni hi')]
      exact h2)
    have hil : i < ts.length := (List.getElem?_eq_some_iff.mp hti).1
    refine ⟨o :: outs, ts', ?_, by simp [t2], ?_, ?_, ?_⟩
    · rw [List.filterMap_cons_some hci, signAll, s1]
      simp only [Option.bind_eq_bind, Option.bind_some, t1]
    · rw [List.flatMap_cons, run_append, run_block hti s4, keyAfter_cons]
      exact t3
    · intro i' hi'
      simp only [List.mem_cons, not_or] at hi'
      rw [t4 i' hi'.2, List.getElem?_set_ne (Ne.symm hi'.1)]
    · intro j i' hj
      cases j with
      | zero =>
        simp only [List.getElem?_cons_zero, Option.some.injEq] at hj
        subst hj
        refine ⟨o, c, by simp, hci, ?_⟩
        rw [t4 i hni]
        simp [hil]
      | succ j =>
        simp only [List.getElem?_cons_succ] at hj ⊢
        exact t5 j i' hj

/-! ### Every schedule -/

/-- Where a counter of a loop can be. -/
def PcOk (p : Params) : SignPc → Prop
  | .reading got => got.length ≤ p.index_bytes
  | .wiping _ j => j ≤ p.sk_bytes
  | .copying _ j => j ≤ p.index_bytes
  | .writing _ j => j ≤ p.index_bytes
  | .done r => r = 0 ∨ r = -2
  | _ => True

/-- Number of steps a thread has left, at most. -/
def fuel (p : Params) : SignPc → Nat
  | .start => 3 * p.index_bytes + p.sk_bytes + 6
  | .reading got => (p.index_bytes - got.length) + 2 * p.index_bytes + p.sk_bytes + 5
  | .wiping _ j => (p.sk_bytes - j) + 2 * p.index_bytes + 4
  | .copying _ j => (p.index_bytes - j) + p.index_bytes + 3
  | .writing _ j => j + 2
  | .signing _ => 1
  | .done _ => 0

theorem fuel_zero {pc : SignPc} (h : fuel p pc = 0) : ∃ r, pc = .done r := by
  cases pc <;> simp [fuel] at h <;> first | omega | exact ⟨_, rfl⟩

theorem step_ok (g : p.Good) (hskb : p.sk_bytes = p.index_bytes + 4 * p.n) (hH : ∀ x, (H x).length = p.n) (sk : Bytes)
    (t : SignThread) (hsk : sk.length = p.sk_bytes) (hsm : p.sig_bytes + t.m.length ≤ t.sm.length) (hpc : PcOk p t.pc) :
    ∃ sk' t', signThreadStep H p sk t = some (sk', t') ∧ sk'.length = p.sk_bytes ∧ t'.m = t.m ∧ t'.sm.length = t.sm.length ∧
      PcOk p t'.pc ∧ fuel p t'.pc ≤ fuel p t.pc - 1 := by
  obtain ⟨pc, sm, m⟩ := t
  have hfh := g.fh_lt
  have hle : p.index_bytes ≤ p.sig_bytes := by have := g.sig_eq; omega
  simp only at hsm hpc
  cases pc with
  | start =>
    simp only [signThreadStep]
    rw [wr_some (by omega)]
    refine ⟨sk, _, rfl, hsk, rfl, ?_, by simp [PcOk], by simp [fuel]; omega⟩
    simp; omega
  | reading got =>
    simp only [PcOk] at hpc
    simp only [signThreadStep]
    by_cases h : got.length < p.index_bytes
    · rw [if_pos h, List.getElem?_eq_getElem (by omega)]
      refine ⟨sk, _, rfl, hsk, rfl, rfl, by simp [PcOk]; omega, by simp [fuel]; omega⟩
    · rw [if_neg h, bytesToUll_eq (by have := g.idx_le; omega)]
      simp only [Option.bind_eq_bind, Option.bind_some]
      rw [if_neg (by omega)]
      split
      · exact ⟨sk, _, rfl, hsk, rfl, rfl, by simp [PcOk], by simp [fuel]; omega⟩
      · exact ⟨sk, _, rfl, hsk, rfl, rfl, by simp [PcOk], by simp [fuel]; omega⟩
  | wiping idx j =>
    simp only [PcOk] at hpc
    simp only [signThreadStep]
    by_cases h : j < p.sk_bytes
    · rw [if_pos h, if_pos (by omega)]
      exact ⟨_, _, rfl, by simp [hsk], rfl, rfl, by simp [PcOk]; omega, by simp [fuel]; omega⟩
    · rw [if_neg h]
      split
      · exact ⟨sk, _, rfl, hsk, rfl, rfl, by simp [PcOk], by simp [fuel]⟩
      · exact ⟨sk, _, rfl, hsk, rfl, rfl, by simp [PcOk], by simp [fuel]; omega⟩
  | copying idx j =>
    simp only [PcOk] at hpc
    simp only [signThreadStep]
    by_cases h : j < p.index_bytes
    · rw [if_pos h, List.getElem?_eq_getElem (by omega)]
      simp only [Option.bind_eq_bind, Option.bind_some]
      rw [wr_some (by simp; omega)]
      refine ⟨sk, _, rfl, hsk, rfl, ?_, by simp [PcOk]; omega, by simp [fuel]; omega⟩
      simp; omega
    · rw [if_neg h]
      exact ⟨sk, _, rfl, hsk, rfl, rfl, by simp [PcOk], by simp [fuel]⟩
  | writing idx j =>
    simp only [PcOk] at hpc
    cases j with
    | zero => exact ⟨sk, _, rfl, hsk, rfl, rfl, by simp [PcOk], by simp [fuel]⟩
    | succ j =>
      simp only [signThreadStep]
      rw [if_pos (by omega)]
      exact ⟨_, _, rfl, by simp [hsk], rfl, rfl, by simp [PcOk]; omega, by simp [fuel]⟩
  | signing idx =>
    obtain ⟨k, hk, i, _, rfl⟩ := sk_decompose p sk (by omega)
    set I := Rfc.toByte i p.index_bytes with hI
    have hIl : I.length = p.index_bytes := toByte_length _ _
    have h1 := hk.skSeed
    have h2 := hk.skPrf
    have h3 := hk.root
    have h4 := hk.pubSeed
    have r1 : rd (I ++ k.skSeed ++ k.skPrf ++ k.root ++ k.pubSeed) p.index_bytes p.n = some k.skSeed := by
      rw [show I ++ k.skSeed ++ k.skPrf ++ k.root ++ k.pubSeed = I ++ k.skSeed ++ (k.skPrf ++ k.root ++ k.pubSeed) by simp]
      exact rd_append _ _ _ hIl.symm h1.symm
    have r2 : rd (I ++ k.skSeed ++ k.skPrf ++ k.root ++ k.pubSeed) (p.index_bytes + p.n) p.n = some k.skPrf := by
      rw [show I ++ k.skSeed ++ k.skPrf ++ k.root ++ k.pubSeed = (I ++ k.skSeed) ++ k.skPrf ++ (k.root ++ k.pubSeed) by simp]
      exact rd_append _ _ _ (by simp [hIl, h1]) h2.symm
    have r3 : rd (I ++ k.skSeed ++ k.skPrf ++ k.root ++ k.pubSeed) (p.index_bytes + 2 * p.n) p.n = some k.root :=
      rd_append _ _ _ (by simp [hIl, h1, h2]; omega) h3.symm
    have r4 : rd (I ++ k.skSeed ++ k.skPrf ++ k.root ++ k.pubSeed) (p.index_bytes + 3 * p.n) p.n = some k.pubSeed := by
      have := rd_append (I ++ k.skSeed ++ k.skPrf ++ k.root) k.pubSeed [] (off := p.index_bytes + 3 * p.n) (len := p.n)
        (by simp [hIl, h1, h2, h3]; omega) h4.symm
      rwa [List.append_nil] at this
    obtain ⟨hd, tl, m', post, rfl, l1, l2, l3⟩ : ∃ hd tl m' post : Bytes, sm = hd ++ tl ++ m' ++ post ∧ hd.length = p.index_bytes ∧
        (hd ++ tl).length = p.sig_bytes ∧ m'.length = m.length := by
      refine ⟨sm.take p.index_bytes, (sm.drop p.index_bytes).take (p.sig_bytes - p.index_bytes), (sm.drop p.sig_bytes).take m.length,
        sm.drop (p.sig_bytes + m.length), ?_, ?_, ?_, ?_⟩
      · rw [← List.take_add, Nat.add_sub_cancel' hle, ← List.take_add, List.take_append_drop]
      all_goals simp; omega
    have e := rest_eq g hH hd tl k.skSeed k.skPrf k.root k.pubSeed m' post idx l1 h1 h2 h3 h4 l2
    rw [l3] at e
    simp only [signThreadStep]
    rw [r1, r2, r3, r4]
    simp only [Option.bind_eq_bind, Option.bind_some]
    rw [e]
    refine ⟨_, _, rfl, hsk, rfl, ?_, by simp [PcOk], by simp [fuel]⟩
    have := sign_length g hH k.skSeed k.skPrf k.root k.pubSeed idx m'
    simp only [List.length_append, List.length_drop] at l2 ⊢
    omega
  | done r => exact ⟨sk, _, rfl, hsk, rfl, rfl, hpc, by simp [fuel]⟩

theorem run_ok (g : p.Good) (hskb : p.sk_bytes = p.index_bytes + 4 * p.n) (hH : ∀ x, (H x).length = p.n) :
    ∀ (sched : List Nat) (sk : Bytes) (ts : List SignThread), sk.length = p.sk_bytes → (∀ i ∈ sched, i < ts.length) →
      (∀ t ∈ ts, p.sig_bytes + t.m.length ≤ t.sm.length ∧ PcOk p t.pc) →
    ∃ sk' ts', signThreads H p sched (sk, ts) = some (sk', ts') ∧ sk'.length = p.sk_bytes ∧ ts'.length = ts.length ∧
      ∀ i t, ts[i]? = some t → ∃ t', ts'[i]? = some t' ∧ t'.m = t.m ∧ t'.sm.length = t.sm.length ∧ PcOk p t'.pc ∧
        fuel p t'.pc ≤ fuel p t.pc - sched.count i := by
  intro sched
  induction sched with
  | nil =>
    intro sk ts hsk _ ht
    exact ⟨sk, ts, rfl, hsk, rfl, fun i t h => ⟨t, h, rfl, rfl, (ht t (List.mem_of_getElem? h)).2, by simp⟩⟩
  | cons i sched ih =>
    intro sk ts hsk hs ht
    have hi := hs i (by simp)
    obtain ⟨t, hti⟩ : ∃ t, ts[i]? = some t := ⟨_, List.getElem?_eq_getElem hi⟩
    obtain ⟨q1, q2⟩ := ht t (List.mem_of_getElem? hti)
    obtain ⟨sk1, t1, e1, e2, e3, e4, e5, e6⟩ := step_ok g hskb hH sk t hsk q1 q2
    obtain ⟨sk', ts', f1, f2, f3, f4⟩ := ih sk1 (ts.set i t1) e2 (fun j hj => by simpa using hs j (by simp [hj])) (by
      intro u hu
      rcases List.mem_or_eq_of_mem_set hu with h | rfl
      · exact ht u h
      · exact ⟨by rw [e3, e4]; exact q1, e5⟩)
    refine ⟨sk', ts', ?_, f2, by simpa using f3, ?_⟩
    · simp only [signThreads, hti, e1, Option.bind_eq_bind, Option.bind_some]
      exact f1
    · intro j u hu
      by_cases hij : j = i
      · subst hij
        rw [hti] at hu
        cases hu
        obtain ⟨t', g1, g2, g3, g4, g5⟩ := f4 j t1 (by simp [hi])
        refine ⟨t', g1, g2.trans e3, g3.trans e4, g4, ?_⟩
        simp only [List.count_cons_self]
        omega
      · obtain ⟨t', g1, g2, g3, g4, g5⟩ := f4 j u (by rw [List.getElem?_set_ne (Ne.symm hij)]; exact hu)
        refine ⟨t', g1, g2, g3, g4, ?_⟩
        rw [List.count_cons_of_ne (Ne.symm hij)]
        exact g5

end SignThreads
open SignThreads Reuse

/-! ### C70 -/

/-- The threads before their calls. -/
def callThreads (calls : List Call) : List SignThread := calls.map fun c => ⟨.start, c.sm, c.msg⟩

/-- **C70 (every schedule).**  Any number of threads sign with one secret key in memory, under any schedule: nothing is read or
written outside the buffers, and a thread that has made `3 * index_bytes + sk_bytes + 6` steps of its own has returned 0 or -2,
whatever the others do. -/
theorem C70_every_schedule (hp : f.parse oid = some p) (hH : coreHash P p.func p.n = some H) (sk : Bytes)
    (hsk : sk.length = 4 + p.sk_bytes) (calls : List Call) (hc : Sized p calls) (sched : List Nat)
    (hs : ∀ i ∈ sched, i < calls.length) :
    ∃ sk' ts, signThreads H p sched (sk.drop 4, callThreads calls) = some (sk', ts) ∧ sk'.length = p.sk_bytes ∧
      ∀ (i : Nat) (c : Call), calls[i]? = some c → ∃ t, ts[i]? = some t ∧ t.sm.length = c.sm.length ∧
        (3 * p.index_bytes + p.sk_bytes + 6 ≤ sched.count i → t.pc = .done 0 ∨ t.pc = .done (-2)) := by
  obtain ⟨g, hskb, _, _⟩ := Family.facts (P := P) hp
  have hHl := Family.hash_length hp hH
  obtain ⟨sk', ts', e1, e2, _, e4⟩ := run_ok g hskb hHl sched (sk.drop 4) (callThreads calls) (by simp [hsk])
    (by simpa [callThreads] using hs) (by
      intro t ht
      simp only [callThreads, List.mem_map] at ht
      obtain ⟨c, hc', rfl⟩ := ht
      exact ⟨(hc c hc').ge, trivial⟩)
  refine ⟨sk', ts', e1, e2, ?_⟩
  intro i c hi
  obtain ⟨t, t1, _, t3, t4, t5⟩ := e4 i ⟨.start, c.sm, c.msg⟩ (by simp [callThreads, hi])
  refine ⟨t, t1, t3, fun hn => ?_⟩
  have t5' : fuel p t.pc ≤ 3 * p.index_bytes + p.sk_bytes + 6 - sched.count i := t5
  obtain ⟨r, hr⟩ := fuel_zero (p := p) (pc := t.pc) (by omega)
  rw [hr] at t4 ⊢
  rcases t4 with rfl | rfl
  · exact .inl rfl
  · exact .inr rfl

/-- **C70 (with a lock).**  If the calls do not overlap (each thread runs its whole call while the others wait, in any order), the
threads get exactly what the same calls made one after another get, and leave the same key: so all of C01, C02, C16 applies. -/
theorem C70_locked_partial (hp : f.parse oid = some p) (hH : coreHash P p.func p.n = some H) (sk : Bytes)
    (hsk : sk.length = 4 + p.sk_bytes) (ho : readOid sk = some oid) (calls : List Call) (hc : Sized p calls) (order : List Nat)
    (hnd : order.Nodup) (hlt : ∀ i ∈ order, i < calls.length) (len : Nat → Nat)
    (hlen : ∀ i, 3 * p.index_bytes + p.sk_bytes + 7 ≤ len i) :
    ∃ outs ts, signAll P f sk (order.filterMap (calls[·]?)) = some outs ∧ outs.length = order.length ∧
      signThreads H p (order.flatMap fun i => List.replicate (len i) i) (sk.drop 4, callThreads calls) =
        some ((keyAfter sk outs).drop 4, ts) ∧
      ∀ (j i : Nat), order[j]? = some i → ∃ o t, outs[j]? = some o ∧ ts[i]? = some t ∧ t.pc = .done o.ret ∧ t.sm = o.sm := by
  obtain ⟨outs, ts, h1, h2, h3, _, h5⟩ := serial (f := f) hp hH calls hc len hlen order sk (callThreads calls) hsk ho hnd (by
    intro i hi
    obtain ⟨c, hc⟩ : ∃ c, calls[i]? = some c := ⟨_, List.getElem?_eq_getElem (hlt i hi)⟩
    exact ⟨c, hc, by simp [callThreads, hc]⟩)
  refine ⟨outs, ts, h1, h2, h3, ?_⟩
  intro j i hj
  obtain ⟨o, c, a1, _, a3⟩ := h5 j i hj
  exact ⟨o, _, a1, a3, rfl, rfl⟩

/-- **C70 (refuted without one).**  A key pair is generated and any history of calls is made; then two threads sign with the key at
the same time.  There is a schedule in which both return 0 and both signatures, which open accepts, carry the same index; and they
give signatures on further messages away (C63). -/
theorem C70_race (hp : f.parse oid = some p) (hH : coreHash P p.func p.n = some H) (pk0 sk0 : Bytes)
    (hpk : pk0.length = 4 + p.pk_bytes) (hsk : sk0.length = 4 + p.sk_bytes) (seed : Nat → Bytes)
    (hs : (seed p.n).length = 3 * p.n) :
    let S := suiteOf p H
    ∃ pk sk, f.keypair P pk0 sk0 oid seed = some (0, pk, sk) ∧
      let root := (pk.drop 4).take p.n
      let pubSeed := pk.drop (4 + p.n)
      ∀ cs c1 c2, Sized p cs → Sized p [c1, c2] → cs.length < 2 ^ p.full_height - 1 →
        (∀ c ∈ [c1, c2], p.sig_bytes + c.msg.length < 2 ^ 64) →
      ∃ outs, signAll P f sk cs = some outs ∧
        ∃ sched sk' t1 t2, signThreads H p sched ((keyAfter sk outs).drop 4, callThreads [c1, c2]) = some (sk', [t1, t2]) ∧
        t1.pc = .done 0 ∧ t2.pc = .done 0 ∧
        index S t1.sm = cs.length ∧ index S t2.sm = cs.length ∧
        (∀ t c, (t, c) = (t1, c1) ∨ (t, c) = (t2, c2) → ∀ (mbuf : Bytes) (l0 : Nat), p.sig_bytes + c.msg.length ≤ mbuf.length →
          ∃ v, f.signOpen P mbuf l0 t.sm (p.sig_bytes + c.msg.length) pk = some v ∧ v.ret = 0 ∧ v.mlen = c.msg.length ∧
            v.m.take v.mlen = c.msg) ∧
        let sig1 := t1.sm.take p.sig_bytes
        let sig2 := t2.sm.take p.sig_bytes
        ∀ r m : Bytes, r.length = p.n → p.sig_bytes + m.length < 2 ^ 64 →
          (∀ j < S.len, digit S root (randomiser S sig1) cs.length c1.msg j ≤ digit S root r cs.length m j ∨
            digit S root (randomiser S sig2) cs.length c2.msg j ≤ digit S root r cs.length m j) →
          ∀ (mbuf : Bytes) (l0 : Nat), p.sig_bytes + m.length ≤ mbuf.length →
            ∃ v, f.signOpen P mbuf l0 (forge S root pubSeed sig1 c1.msg sig2 c2.msg r m ++ m) (p.sig_bytes + m.length) pk =
              some v ∧ v.ret = 0 ∧ v.mlen = m.length ∧ v.m.take v.mlen = m := by
  intro S
  obtain ⟨g, hskb, ho, _⟩ := Family.facts (P := P) hp
  have hHl := Family.hash_length hp hH
  obtain ⟨k, hv, hh, _, hk⟩ := keypair_key hp hH pk0 sk0 hpk hsk seed hs
  refine ⟨_, _, hk, ?_⟩
  have eroot : ((k.pk oid).drop 4).take p.n = k.root := by
    rw [Key.pk, List.drop_left' (toByte_length _ _), List.take_left' hv.root]
  have eseed : (k.pk oid).drop (4 + p.n) = k.pubSeed := by
    rw [Key.pk, ← List.drop_drop, List.drop_left' (toByte_length _ _), List.drop_left' hv.root]
  simp only [eroot, eseed]
  intro cs c1 c2 h0 h12 hlen h64
  have hi := g.idx_fits
  obtain ⟨outs, o1, _, o3, _⟩ := keyAfter_history (f := f) hp hH k hv cs h0 (by omega)
  have hr := race g hHl k hv cs.length hlen c1.sm c1.msg c2.sm c2.msg (h12 c1 (by simp)) (h12 c2 (by simp))
  rw [← sk_drop (p := p) k oid cs.length] at hr
  have hl : ∀ m, (S.sign k.skSeed k.skPrf k.root k.pubSeed cs.length m).length = p.sig_bytes := fun m => sign_length g hHl _ _ _ _ _ _
  have hib : cs.length < 256 ^ p.index_bytes := by omega
  have hle : p.index_bytes ≤ p.sig_bytes := by have := g.sig_eq; omega
  have accept : ∀ (sig m : Bytes), sig.length = p.sig_bytes → S.verify k.root k.pubSeed m sig → p.sig_bytes + m.length < 2 ^ 64 →
      ∀ (mbuf : Bytes) (l0 : Nat), p.sig_bytes + m.length ≤ mbuf.length →
      ∃ v, f.signOpen P mbuf l0 (sig ++ m) (p.sig_bytes + m.length) (k.pk oid) = some v ∧ v.ret = 0 ∧ v.mlen = m.length ∧
        v.m.take v.mlen = m := by
    intro sig m hsl hver h64 mbuf l0 hmb
    obtain ⟨v, v1, v2, v3⟩ := C23_open_is_rfc hp hH k hv.root hv.pubSeed sig m mbuf l0 hsl h64 hmb
    obtain ⟨v', w1, w2⟩ := C24_open_output (P := P) hp k hv.root hv.pubSeed sig m mbuf l0 hsl h64 hmb
    rw [v1] at w1
    cases w1
    have hret := v3.mpr hver
    refine ⟨v, v1, hret, ?_⟩
    rcases w2 with ⟨_, h5, h6⟩ | ⟨h5, _⟩
    · exact ⟨h5, by rw [h5]; exact h6⟩
    · rw [hret] at h5; cases h5
  have eidx : ∀ m, index S (S.sign k.skSeed k.skPrf k.root k.pubSeed cs.length m ++ m) = cs.length := by
    intro m
    obtain ⟨_, a2, _⟩ := sign_fields g hHl k cs.length hib m
    rw [index, List.take_append_of_le_length (by rw [hl]; exact hle)]
    exact a2
  refine ⟨outs, o1, raceSched p, body k p (cs.length + 1), _, _, by rw [o3]; exact hr, rfl, rfl, eidx _, eidx _, ?_, ?_⟩
  · intro t c htc mbuf l0 hmb
    have hver : S.verify k.root k.pubSeed c.msg (S.sign k.skSeed k.skPrf k.root k.pubSeed cs.length c.msg) :=
      by
        rw [Rfc.Suite.verify, verifyRoot_sign g hHl _ _ _ _ _ _ hib, Nat.div_eq_of_lt (by omega)]
        exact hh.symm
    rcases htc with h | h <;> cases h
    · exact accept _ _ (hl _) hver (h64 _ (by simp)) mbuf l0 hmb
    · exact accept _ _ (hl _) hver (h64 _ (by simp)) mbuf l0 hmb
  · have htk : ∀ m m' : Bytes, List.take p.sig_bytes ((suiteOf p H).sign k.skSeed k.skPrf k.root k.pubSeed cs.length m ++ m') =
        (suiteOf p H).sign k.skSeed k.skPrf k.root k.pubSeed cs.length m := fun m m' => List.take_left' (hl m)
    simp only [htk]
    intro r m hrl hm64 hdom mbuf l0 hmb
    obtain ⟨_, _, a3, _⟩ := sign_fields g hHl k cs.length hib c1.msg
    obtain ⟨_, _, b3, _⟩ := sign_fields g hHl k cs.length hib c2.msg
    rw [a3, b3] at hdom
    obtain ⟨f1, f2⟩ := reuse_verify g hHl k hh cs.length (by omega) c1.msg c2.msg r m hrl
      (fun j hj => (min_le_iff).mpr (hdom j hj))
    exact accept _ _ f1 f2 hm64 mbuf l0 hmb

/-- **C70 (worse: a torn index).**  The index is neither written nor read in one piece.  Whenever the number of signatures made is
255 modulo 256 there is a schedule of two threads in which one of them signs with an index that a call of the history has used
long ago, and the key in memory is left with an index that makes the next 254 calls repeat indices. -/
theorem C70_torn (hp : f.parse oid = some p) (hH : coreHash P p.func p.n = some H) (pk0 sk0 : Bytes)
    (hpk : pk0.length = 4 + p.pk_bytes) (hsk : sk0.length = 4 + p.sk_bytes) (seed : Nat → Bytes)
    (hs : (seed p.n).length = 3 * p.n) :
    let S := suiteOf p H
    ∃ pk sk, f.keypair P pk0 sk0 oid seed = some (0, pk, sk) ∧
      ∀ cs c1 c2, Sized p cs → Sized p [c1, c2] → cs.length < 2 ^ p.full_height - 1 → cs.length % 256 = 255 →
      ∃ outs, signAll P f sk cs = some outs ∧
        ∃ sched sk' t1 t2, signThreads H p sched ((keyAfter sk outs).drop 4, callThreads [c1, c2]) = some (sk', [t1, t2]) ∧
        t1.pc = .done 0 ∧ t2.pc = .done 0 ∧ index S t1.sm = cs.length ∧ index S t2.sm + 255 = cs.length ∧
        (∃ o, outs[cs.length - 255]? = some o ∧ o.ret = 0 ∧ index S o.sm = index S t2.sm) ∧
        Rfc.toNat (sk'.take p.index_bytes) + 254 = cs.length := by
  intro S
  obtain ⟨g, hskb, ho, _⟩ := Family.facts (P := P) hp
  have hHl := Family.hash_length hp hH
  obtain ⟨k, hv, hh, _, hk⟩ := keypair_key hp hH pk0 sk0 hpk hsk seed hs
  refine ⟨_, _, hk, ?_⟩
  intro cs c1 c2 h0 h12 hlen hmod
  have hi := g.idx_fits
  obtain ⟨outs, o1, o2, o3, o4⟩ := keyAfter_history (f := f) hp hH k hv cs h0 (by omega)
  have hr := torn g hHl k hv cs.length hlen hmod c1.sm c1.msg c2.sm c2.msg (h12 c1 (by simp)) (h12 c2 (by simp))
  rw [← sk_drop (p := p) k oid cs.length] at hr
  have hle : p.index_bytes ≤ p.sig_bytes := by have := g.sig_eq; omega
  have eidx : ∀ i m, i < 2 ^ p.full_height → index S (S.sign k.skSeed k.skPrf k.root k.pubSeed i m ++ m) = i := by
    intro i m him
    obtain ⟨_, a2, _⟩ := sign_fields g hHl k i (by omega) m
    rw [index, List.take_append_of_le_length (by rw [sign_length g hHl]; exact hle)]
    exact a2
  obtain ⟨o, ho⟩ : ∃ o, outs[cs.length - 255]? = some o := ⟨_, List.getElem?_eq_getElem (by omega)⟩
  obtain ⟨c, _, q1, q2⟩ := o4 _ _ ho
  refine ⟨outs, o1, tornSched p, _, _, _, by rw [o3]; exact hr, rfl, rfl, eidx cs.length _ (by omega), ?_, ⟨o, ho, q1, ?_⟩, ?_⟩
  · rw [eidx _ _ (by omega)]; omega
  · rw [q2, eidx _ _ (by omega), eidx _ _ (by omega)]
  · rw [body, List.take_left' (toByte_length _ _), toNat_toByte, Nat.mod_eq_of_lt (by omega)]
    omega

/-- Non-vacuity of C70: XMSS-SHA2_10_256 with any hash functions, a key that has made 255 signatures, and two threads. -/
theorem C70_example (P : Prims) (seed : Nat → Bytes) (hs : (seed 32).length = 96) :
    let call : Call := ⟨List.replicate (q.sig_bytes + 1) 0, 0, [7]⟩
    let S := suiteOf q P.sha256
    ∃ pk sk outs, xmssKeypair P (List.replicate 68 0) (List.replicate 136 0) 1 seed = some (0, pk, sk) ∧
      signAll P .xmss sk (List.replicate 255 call) = some outs ∧
      ∃ sched sk' t1 t2, signThreads P.sha256 q sched ((keyAfter sk outs).drop 4, callThreads [call, call]) = some (sk', [t1, t2]) ∧
        t1.pc = .done 0 ∧ t2.pc = .done 0 ∧ index S t1.sm = 255 ∧ index S t2.sm = 0 ∧ Rfc.toNat (sk'.take 4) = 1 := by
  intro call S
  have hp : Family.xmss.parse 1 = some q := rfl
  have hH : coreHash P q.func q.n = some P.sha256 := rfl
  have hc : ∀ n, Sized q (List.replicate n call) := by
    intro n c hc
    rw [List.eq_of_mem_replicate hc]
    simp [call]
  obtain ⟨pk, sk, hk, hall⟩ := C70_torn (f := .xmss) (P := P) hp hH (List.replicate 68 0) (List.replicate 136 0) (by simp; rfl) (by simp; rfl)
    seed hs
  obtain ⟨outs, h1, sched, sk', t1, t2, h2, h3, h4, h5, h6, _, h9⟩ := hall (List.replicate 255 call) call call (hc 255)
    (hc 2) (by rw [List.length_replicate]; decide) (by rw [List.length_replicate])
  rw [List.length_replicate] at h5 h6 h9
  have e : q.index_bytes = 4 := rfl
  rw [e] at h9
  exact ⟨pk, sk, outs, hk, h1, sched, sk', t1, t2, h2, h3, h4, h5, by have : index S t2.sm + 255 = 255 := h6; omega, by omega⟩

end Xmss
