import Verif.Model.RandomThreads
import Verif.Proof.Bytes
import Mathlib.Tactic.Set
/-
C59: randombytes called by several threads at the same time.
-/
namespace Xmss

/-- Start: no descriptor yet, nothing delivered, every thread about to enter the function with a large enough buffer. -/
structure RandStart (w : RandWorld) : Prop where
  log : w.log = []
  pc : ∀ i, (w.th i).pc = .start
  fits : ∀ i, (w.th i).x + (w.th i).xlen ≤ (w.th i).mem.length

theorem upd_same (w : RandWorld) (i : Nat) (t : RandThread) : w.upd i t i = t := by simp [RandWorld.upd]
theorem upd_other (w : RandWorld) {i j : Nat} (t : RandThread) (h : j ≠ i) : w.upd i t j = w.th j := by
  simp [RandWorld.upd, h]

theorem threadReq_le (n : Nat) : readRequest n ≤ n := by
  unfold readRequest; split <;> omega
theorem threadReq_pos {n : Nat} (h : 0 < n) : 0 < readRequest n := by
  unfold readRequest; split <;> omega

theorem wr_wr_append {b b1 b2 : Bytes} {x : Nat} {d e : Bytes} (h1 : wr b x d = some b1)
    (h2 : wr b1 (x + d.length) e = some b2) : wr b x (d ++ e) = some b2 := by
  unfold wr at h1 h2 ⊢
  split_ifs at h1 with c1
  simp only [Option.some.injEq] at h1
  have hl : b1.length = b.length := by rw [← h1]; simp; omega
  split_ifs at h2 with c2
  rw [if_pos (by rw [List.length_append]; omega)]
  simp only [Option.some.injEq] at h2 ⊢
  rw [← h2, ← h1]
  have e1 : (b.take x ++ d ++ b.drop (x + d.length)).take (x + d.length) = b.take x ++ d :=
    List.take_left' (by simp; omega)
  have e2 : (b.take x ++ d ++ b.drop (x + d.length)).drop (x + d.length + e.length) = b.drop (x + (d ++ e).length) := by
    rw [← List.drop_drop, List.drop_left' (by simp; omega), List.drop_drop, List.length_append, Nat.add_assoc]
  rw [e1, e2]
  simp [List.append_assoc]

theorem wr_nil {b : Bytes} {x : Nat} (h : x ≤ b.length) : wr b x [] = some b := by
  simp [wr, h]

theorem wr_length' {b b' : Bytes} {x : Nat} {d : Bytes} (h : wr b x d = some b') : b'.length = b.length := by
  unfold wr at h
  split_ifs at h with c
  simp only [Option.some.injEq] at h
  rw [← h]; simp; omega

/-- What holds for thread `i` at any time. -/
structure RandInv (w0 w : RandWorld) (i : Nat) : Prop where
  mem : wr (w0.th i).mem (w0.th i).x (w.delivered i) = some (w.th i).mem
  x : (w.th i).x = (w0.th i).x + (w.delivered i).length
  xlen : (w.delivered i).length + (w.th i).xlen = (w0.th i).xlen
  done : (w.th i).pc = .done → (w.th i).xlen = 0

theorem rand_inv {w0 w : RandWorld} (h0 : RandStart w0) (h : RandReach w0 w) (i : Nat) : RandInv w0 w i := by
  induction h with
  | refl =>
    have hd : w0.delivered i = [] := by simp [RandWorld.delivered, h0.log]
    have := h0.fits i
    refine ⟨?_, ?_, ?_, ?_⟩
    · rw [hd]; exact wr_nil (by omega)
    · simp [hd]
    · simp [hd]
    · rw [h0.pc i]; intro h; cases h
  | @step w v hr hs ih =>
    have keep : ∀ (u : RandWorld) (pc : RandPc) (j : Nat), u.log = w.log → u.th = w.upd j { w.th j with pc := pc } →
        (j = i → pc = .done → (w.th i).xlen = 0) → RandInv w0 u i := by
      intro u pc j hl ht hp
      have hd : u.delivered i = w.delivered i := by simp [RandWorld.delivered, hl]
      by_cases hj : i = j
      · subst hj
        have e : u.th i = { w.th i with pc := pc } := by rw [ht, upd_same]
        exact ⟨by rw [hd, e]; exact ih.mem, by rw [hd, e]; exact ih.x, by rw [hd, e]; exact ih.xlen,
          by rw [e]; exact hp rfl⟩
      · have e : u.th i = w.th i := by rw [ht, upd_other _ _ hj]
        exact ⟨by rw [hd, e]; exact ih.mem, by rw [hd, e]; exact ih.x, by rw [hd, e]; exact ih.xlen,
          by rw [e]; exact ih.done⟩
    cases hs with
    | test j h => exact keep _ _ j rfl rfl (by intro _ h; split at h <;> cases h)
    | openDev j ok h => exact keep _ _ j rfl rfl (by intro _ h; cases h)
    | check j h => exact keep _ _ j rfl rfl (by intro _ h; split at h <;> cases h)
    | readFail j h hx => exact ih
    | finish j h hx => exact keep _ _ j rfl rfl (by rintro rfl _; exact hx)
    | readOk j d mem h hx hfd hd hd' hw =>
      by_cases hj : i = j
      · subst hj
        have hdel : ∀ th, RandWorld.delivered { w with log := w.log ++ [(i, d)], th := th } i = w.delivered i ++ d := by
          intro th
          simp [RandWorld.delivered, List.filter_append]
        have hrl := threadReq_le (w.th i).xlen
        refine ⟨?_, ?_, ?_, ?_⟩
        · rw [hdel]
          simp only [upd_same]
          rw [ih.x] at hw
          exact wr_wr_append ih.mem hw
        · rw [hdel]
          simp only [upd_same]
          rw [ih.x, List.length_append]; omega
        · rw [hdel]
          simp only [upd_same]
          rw [← ih.xlen, List.length_append]; omega
        · simp only [upd_same]
          intro h; cases h
      · have hdel : ∀ th, RandWorld.delivered { w with log := w.log ++ [(j, d)], th := th } i = w.delivered i := by
          intro th
          have : ¬ j = i := fun h => hj h.symm
          simp [RandWorld.delivered, List.filter_append, this]
        refine ⟨?_, ?_, ?_, ?_⟩ <;> simp only [hdel, upd_other _ _ hj]
        · exact ih.mem
        · exact ih.x
        · exact ih.xlen
        · exact ih.done

/-- **C59 (every schedule).**  Whatever the schedule of the threads and the behaviour of `open` and `read`: when a thread's
call has returned, the `xlen` bytes at `x` are exactly the bytes that the device delivered to this thread, in order; the
rest of its memory is unchanged.  (Each piece of device output goes to one thread only: it has one owner in the log.) -/
theorem C59_concurrent_fill {w0 w : RandWorld} (h0 : RandStart w0) (h : RandReach w0 w) (i : Nat) (hd : (w.th i).pc = .done) :
    (w.delivered i).length = (w0.th i).xlen ∧
      (w.th i).mem = (w0.th i).mem.take (w0.th i).x ++ w.delivered i ++ (w0.th i).mem.drop ((w0.th i).x + (w0.th i).xlen) := by
  have inv := rand_inv h0 h i
  have hz := inv.done hd
  have hl := inv.xlen
  have hm := inv.mem
  refine ⟨by omega, ?_⟩
  unfold wr at hm
  split_ifs at hm with c
  simp only [Option.some.injEq] at hm
  rw [← hm, show (w.delivered i).length = (w0.th i).xlen by omega]

/-- **C59 (memory).**  No schedule makes a `read` store outside the caller's buffer. -/
theorem C59_no_overrun {w0 w : RandWorld} (h0 : RandStart w0) (h : RandReach w0 w) (i : Nat) : ¬ w.Overrun i := by
  have inv := rand_inv h0 h i
  rintro ⟨_, hx, ho⟩
  have hrl := threadReq_le (w.th i).xlen
  have h1 := wr_length' inv.mem
  have := h0.fits i
  have := inv.x
  have := inv.xlen
  omega

/-- If there is no descriptor, a thread that is past the first test is on its way to open one, or another thread is. -/
theorem rand_opener {w0 w : RandWorld} (h0 : RandStart w0) (h : RandReach w0 w) (hfd : w.fd = false) :
    (∃ j, (w.th j).pc = .opening ∨ (w.th j).pc = .check) ∨ ∀ j, (w.th j).pc = .start := by
  induction h with
  | refl => exact Or.inr h0.pc
  | @step w v hr hs ih =>
    cases hs with
    | test j h =>
      left
      simp only at hfd
      refine ⟨j, ?_⟩
      simp [upd_same, hfd]
    | openDev j ok h => exact Or.inl ⟨j, by simp [upd_same]⟩
    | check j h =>
      left
      simp only at hfd
      refine ⟨j, ?_⟩
      simp [upd_same, hfd]
    | readFail j h hx => exact ih hfd
    | readOk j d mem h hx hfd' hd hd' hw =>
      simp only at hfd
      rw [hfd] at hfd'
      cases hfd'
    | finish j h hx =>
      simp only at hfd
      rcases ih hfd with ⟨l, hl⟩ | hall
      · left
        have hlj : l ≠ j := by
          rintro rfl
          rw [h] at hl
          rcases hl with hl | hl <;> cases hl
        exact ⟨l, by simp only [upd_other _ _ hlj]; exact hl⟩
      · rw [hall j] at h; cases h

theorem RandReach.trans {w0 w v : RandWorld} (h1 : RandReach w0 w) (h2 : RandReach w v) : RandReach w0 v := by
  induction h2 with
  | refl => exact h1
  | step _ hs ih => exact ih.step hs

/-- With a descriptor, a thread in the read loop can finish. -/
theorem rand_read_finish {w0 : RandWorld} (h0 : RandStart w0) (i : Nat) : ∀ (n : Nat) (w : RandWorld), RandReach w0 w →
    w.fd = true → (w.th i).pc = .reading → (w.th i).xlen = n → ∃ v, RandReach w v ∧ (v.th i).pc = .done := by
  intro n
  induction n using Nat.strong_induction_on with
  | _ n ih =>
    intro w hw hfd hpc hn
    by_cases hz : n = 0
    · refine ⟨_, RandReach.step .refl (.finish w i hpc (by omega)), ?_⟩
      simp [upd_same]
    · have hpos : 0 < (w.th i).xlen := by omega
      have hr := threadReq_pos hpos
      have hrl := threadReq_le (w.th i).xlen
      have hno := C59_no_overrun h0 hw i
      have hfit : (w.th i).x + readRequest (w.th i).xlen ≤ (w.th i).mem.length := by
        by_contra hc
        exact hno ⟨hpc, hpos, by omega⟩
      obtain ⟨mem, hwr⟩ : ∃ mem, wr (w.th i).mem (w.th i).x (List.replicate (readRequest (w.th i).xlen) 0) = some mem := by
        unfold wr
        rw [if_pos (by simpa using hfit)]
        exact ⟨_, rfl⟩
      have st := RandStep.readOk w i _ _ hpc hpos hfd (by simpa using hr) (by simp) hwr
      obtain ⟨v, h1, h2⟩ := ih ((w.th i).xlen - readRequest (w.th i).xlen) (by omega) _ (hw.step st) hfd
        (by simp [upd_same]) (by simp [upd_same])
      exact ⟨v, (RandReach.step .refl st).trans h1, h2⟩

/-- With a descriptor, every thread can finish. -/
theorem rand_finish {w0 : RandWorld} (h0 : RandStart w0) (i : Nat) (w : RandWorld) (hw : RandReach w0 w)
    (hfd : w.fd = true) : ∃ v, RandReach w v ∧ (v.th i).pc = .done := by
  have go : ∀ v, RandReach w v → v.fd = true → (v.th i).pc = .reading → ∃ u, RandReach w u ∧ (u.th i).pc = .done := by
    intro v h1 h2 h3
    obtain ⟨u, h4, h5⟩ := rand_read_finish h0 i _ v (hw.trans h1) h2 h3 rfl
    exact ⟨u, h1.trans h4, h5⟩
  cases hpc : (w.th i).pc with
  | start => exact go _ (.step .refl (.test w i hpc)) hfd (by simp [upd_same, hfd])
  | opening =>
    have s1 := RandStep.openDev w i true hpc
    exact go _ (.step (.step .refl s1) (.check _ i (by simp [upd_same]))) rfl (by simp [upd_same])
  | check => exact go _ (.step .refl (.check w i hpc)) hfd (by simp [upd_same, hfd])
  | reading => exact go w .refl hfd hpc
  | done => exact ⟨w, .refl, hpc⟩

/-- **C59 (no deadlock).**  In whatever state the threads are (also when a failing `open` of one thread has overwritten the
descriptor that another one is using): every thread can still return, if from now on the operating system delivers. -/
theorem C59_never_stuck {w0 w : RandWorld} (h0 : RandStart w0) (h : RandReach w0 w) (i : Nat) :
    ∃ v, RandReach w v ∧ (v.th i).pc = .done := by
  by_cases hfd : w.fd = true
  · exact rand_finish h0 i w h hfd
  have hfd : w.fd = false := by simpa using hfd
  -- a thread that can open the device
  have hopen : ∃ v, RandReach w v ∧ v.fd = true := by
    have fin : ∀ v j, RandReach w v → (v.th j).pc = .opening → ∃ v, RandReach w v ∧ v.fd = true := by
      intro v j hv hj
      exact ⟨_, hv.step (.openDev v j true hj), rfl⟩
    rcases rand_opener h0 h hfd with ⟨j, hj | hj⟩ | hall
    · exact fin w j .refl hj
    · exact fin _ j (.step .refl (.check w j hj)) (by simp [upd_same, hfd])
    · exact fin _ i (.step .refl (.test w i (hall i))) (by simp [upd_same, hfd])
  obtain ⟨v, hv, hvf⟩ := hopen
  obtain ⟨u, hu, hd⟩ := rand_finish h0 i v (h.trans hv) hvf
  exact ⟨u, hv.trans hu, hd⟩

/-! ### The races that do occur -/

/-- Two threads, each wants `n` bytes. -/
def twoCallers (n : Nat) : RandWorld :=
  { fd := false, opens := 0, log := [], th := fun _ => { pc := .start, mem := List.replicate n 0, x := 0, xlen := n } }

theorem twoCallers_start (n : Nat) : RandStart (twoCallers n) :=
  ⟨rfl, fun _ => rfl, fun _ => by simp [twoCallers]⟩

/-- Non-vacuity, and what the lack of a lock costs: the device can be opened twice (one descriptor is lost for good), and a
thread can be in its read loop while the descriptor is -1 again. -/
theorem C59_races (n : Nat) :
    (∃ w, RandReach (twoCallers n) w ∧ w.opens = 2) ∧
    (∃ w, RandReach (twoCallers n) w ∧ (w.th 0).pc = .reading ∧ w.fd = false) := by
  have s1 := RandReach.step .refl (RandStep.test (twoCallers n) 0 rfl)
  have s2 := RandReach.step s1 (.test _ 1 rfl)
  have s3 := RandReach.step s2 (.openDev _ 0 true rfl)
  constructor
  · exact ⟨_, RandReach.step s3 (.openDev _ 1 true rfl), rfl⟩
  · have s4 := RandReach.step s3 (.check _ 0 rfl)
    exact ⟨_, RandReach.step s4 (.openDev _ 1 false rfl), rfl, rfl⟩

end Xmss
