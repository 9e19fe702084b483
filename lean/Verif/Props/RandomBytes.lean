import Verif.Model.RandomBytes
import Verif.Proof.Bytes
import Mathlib.Tactic.Ring
/-
C40: randombytes.
-/
namespace Xmss

/-- The bytes stored by the successful reads of a trace, in order. -/
def stored (tr : List (Nat × Nat × Bytes)) : Bytes := (tr.map fun t => t.2.2).flatten

/-- The reads of a trace fill a region starting at `x` with `xlen` bytes left without gap: each starts where the one
before ended, asks for at least 1 and at most the bytes still missing, and stores at least 1 and at most what it asked for. -/
def Contiguous : Nat → Nat → List (Nat × Nat × Bytes) → Prop
  | _, _, [] => True
  | x, xlen, (off, req, d) :: tr => off = x ∧ 1 ≤ d.length ∧ d.length ≤ req ∧ req ≤ xlen ∧ req ≤ 1048576 ∧
      Contiguous (x + d.length) (xlen - d.length) tr

/-- `tr` are the successful reads that the results `rs` give rise to: failures are skipped, and of each result at most
the requested number of bytes is taken. -/
inductive From : List ReadResult → List (Nat × Nat × Bytes) → Prop
  | nil : From [] []
  | skip {rs tr} (r : ReadResult) (h : r.getD [] = []) : From rs tr → From (r :: rs) tr
  | take {rs tr} (d : Bytes) (off req : Nat) : From rs tr → From (some d :: rs) ((off, req, d.take req) :: tr)

theorem readRequest_le (n : Nat) : readRequest n ≤ n ∧ readRequest n ≤ 1048576 := by
  unfold readRequest; split <;> omega

theorem readRequest_pos {n : Nat} (h : 0 < n) : 0 < readRequest n := by
  unfold readRequest; split <;> omega

theorem randomLoop_spec : ∀ (rs : List ReadResult) (mem : Bytes) (x xlen : Nat) (tr0 : List (Nat × Nat × Bytes)),
    x + xlen ≤ mem.length →
    ∃ o, randomLoop rs mem x xlen tr0 = some o ∧
      match o with
      | .waiting => ((rs.map fun r => r.getD []).flatten).length < xlen ∨ ∃ d ∈ rs, 1048576 < (d.getD []).length
      | .returned mem' tr rest => ∃ tr1 used, tr = tr0 ++ tr1 ∧ rs = used ++ rest ∧ From used tr1 ∧
          Contiguous x xlen tr1 ∧ (stored tr1).length = xlen ∧
          mem' = mem.take x ++ stored tr1 ++ mem.drop (x + xlen) := by
  intro rs
  induction rs with
  | nil =>
    intro mem x xlen tr0 hm
    cases xlen with
    | zero =>
      refine ⟨_, rfl, [], [], by simp, rfl, .nil, trivial, rfl, ?_⟩
      simp [stored]
    | succ n => exact ⟨_, rfl, Or.inl (by simp)⟩
  | cons r rs ih =>
    intro mem x xlen tr0 hm
    cases xlen with
    | zero =>
      refine ⟨.returned mem tr0 (r :: rs), by cases r <;> rfl, [], [], by simp, rfl, .nil, trivial, rfl, ?_⟩
      simp [stored]
    | succ n =>
      have skip : r.getD [] = [] → randomLoop (r :: rs) mem x (n + 1) tr0 = randomLoop rs mem x (n + 1) tr0 →
          ∃ o, randomLoop (r :: rs) mem x (n + 1) tr0 = some o ∧
          match o with
          | .waiting => (((r :: rs).map fun r => r.getD []).flatten).length < n + 1 ∨ ∃ d ∈ r :: rs, 1048576 < (d.getD []).length
          | .returned mem' tr rest => ∃ tr1 used, tr = tr0 ++ tr1 ∧ r :: rs = used ++ rest ∧ From used tr1 ∧
              Contiguous x (n + 1) tr1 ∧ (stored tr1).length = n + 1 ∧
              mem' = mem.take x ++ stored tr1 ++ mem.drop (x + (n + 1)) := by
        intro hr he
        obtain ⟨o, ho, h⟩ := ih mem x (n + 1) tr0 hm
        refine ⟨o, by rw [he, ho], ?_⟩
        cases o with
        | waiting =>
          rcases h with h | ⟨d, hd, h⟩
          · left; simpa [hr] using h
          · right; exact ⟨d, List.mem_cons_of_mem _ hd, h⟩
        | returned mem' tr rest =>
          obtain ⟨tr1, used, h1, h2, h3, h4, h5, h6⟩ := h
          exact ⟨tr1, r :: used, h1, by rw [h2]; rfl, .skip r hr h3, h4, h5, h6⟩
      cases r with
      | none => exact skip rfl rfl
      | some d =>
        have hq := readRequest_le (n + 1)
        have hqp := readRequest_pos (show 0 < n + 1 by omega)
        by_cases hd : (d.take (readRequest (n + 1))).length < 1
        · apply skip
          · rw [List.length_take] at hd
            have : d.length = 0 := by omega
            simpa using List.eq_nil_of_length_eq_zero this
          · rw [randomLoop]; simp only [hd, if_true]
        · rw [randomLoop]
          simp only [hd, if_false]
          generalize hg : d.take (readRequest (n + 1)) = got at *
          have hgl : got.length ≤ n + 1 := by rw [← hg, List.length_take]; omega
          have hgq : got.length ≤ readRequest (n + 1) := by rw [← hg, List.length_take]; omega
          rw [wr_some (by omega)]
          simp only
          obtain ⟨o, ho, h⟩ := ih (mem.take x ++ got ++ mem.drop (x + got.length)) (x + got.length) (n + 1 - got.length)
            (tr0 ++ [(x, readRequest (n + 1), got)]) (by simp; omega)
          refine ⟨o, ho, ?_⟩
          cases o with
          | waiting =>
            rcases h with h | ⟨d', hd', h⟩
            · by_cases hb : 1048576 < d.length
              · right; exact ⟨some d, List.mem_cons_self .., by simpa using hb⟩
              · left
                have : got.length = d.length ∨ n + 1 ≤ got.length := by
                  rw [← hg, List.length_take]
                  unfold readRequest
                  split <;> omega
                simp only [List.map_cons, List.flatten_cons, List.length_append, Option.getD_some]
                have hlt : 0 < n + 1 - got.length := by omega
                omega
            · right; exact ⟨d', List.mem_cons_of_mem _ hd', h⟩
          | returned mem' tr rest =>
            obtain ⟨tr1, used, h1, h2, h3, h4, h5, h6⟩ := h
            refine ⟨(x, readRequest (n + 1), got) :: tr1, some d :: used, by rw [h1]; simp, by rw [h2]; rfl, ?_, ?_, ?_, ?_⟩
            · rw [← hg]; exact .take d _ _ h3
            · exact ⟨rfl, by omega, hgq, hq.1, hq.2, h4⟩
            · simp only [stored, List.map_cons, List.flatten_cons, List.length_append] at h5 ⊢; omega
            · rw [h6]
              have e1 : (mem.take x ++ got ++ mem.drop (x + got.length)).take (x + got.length) = mem.take x ++ got :=
                List.take_left' (by simp; omega)
              have e2 : (mem.take x ++ got ++ mem.drop (x + got.length)).drop (x + got.length + (n + 1 - got.length)) =
                  mem.drop (x + (n + 1)) := by
                rw [← List.drop_drop, List.drop_left' (by simp; omega), List.drop_drop]
                congr 1; omega
              rw [e1, e2]
              simp [stored]

/-- C40.  Whatever the system calls return, `randombytes(x, xlen)` on a buffer of at least `xlen` bytes never stores
outside it (the result is defined); when it returns, the `xlen` bytes at `x` are exactly the bytes delivered by the
device, in order and without gaps, every byte is stored by one of the contiguous reads, and all other memory is unchanged. -/
theorem C40_fills_buffer (isOpen : Bool) (opens : List Bool) (reads : List ReadResult) (mem : Bytes) (x xlen : Nat)
    (hm : x + xlen ≤ mem.length) :
    ∃ o, randombytes isOpen opens reads mem x xlen = some o ∧
      ∀ mem' tr rest, o = .returned mem' tr rest →
        ∃ used, reads = used ++ rest ∧ From used tr ∧ Contiguous x xlen tr ∧ (stored tr).length = xlen ∧
          mem' = mem.take x ++ stored tr ++ mem.drop (x + xlen) := by
  unfold randombytes
  split
  · obtain ⟨o, ho, h⟩ := randomLoop_spec reads mem x xlen [] hm
    refine ⟨o, ho, ?_⟩
    intro mem' tr rest he
    subst he
    obtain ⟨tr1, used, h1, h2, h3, h4, h5, h6⟩ := h
    rw [List.nil_append] at h1
    subst h1
    exact ⟨used, h2, h3, h4, h5, h6⟩
  · exact ⟨.waiting, rfl, fun _ _ _ h => by cases h⟩

/-- C40.  It does return as soon as the device can be opened and the reads deliver `xlen` bytes between them (no single
delivery being larger than the 1 MiB that one iteration asks for). -/
theorem C40_returns (isOpen : Bool) (opens : List Bool) (reads : List ReadResult) (mem : Bytes) (x xlen : Nat)
    (hm : x + xlen ≤ mem.length) (hopen : isOpen = true ∨ true ∈ opens)
    (hsmall : ∀ d ∈ reads, (d.getD []).length ≤ 1048576)
    (henough : xlen ≤ ((reads.map fun r => r.getD []).flatten).length) :
    ∃ mem' tr rest, randombytes isOpen opens reads mem x xlen = some (.returned mem' tr rest) := by
  have ho : ∀ l : List Bool, true ∈ l → openLoop l = true := by
    intro l
    induction l with
    | nil => intro h; cases h
    | cons b l ih =>
      intro h
      cases b with
      | true => rfl
      | false =>
        rcases List.mem_cons.1 h with h | h
        · cases h
        · exact ih h
  unfold randombytes
  have : (isOpen || openLoop opens) = true := by
    rcases hopen with h | h
    · simp [h]
    · simp [ho _ h]
  rw [if_pos this]
  obtain ⟨o, ho, h⟩ := randomLoop_spec reads mem x xlen [] hm
  cases o with
  | waiting =>
    rcases h with h | ⟨d, hd, h⟩
    · omega
    · have := hsmall d hd; omega
  | returned a b c => exact ⟨a, b, c, ho⟩

theorem From.stored_le {used : List ReadResult} {tr : List (Nat × Nat × Bytes)} (hf : From used tr) :
    (stored tr).length ≤ ((used.map fun r => r.getD []).flatten).length := by
  induction hf with
  | nil => simp [stored]
  | skip r h _ ih => simpa [h] using ih
  | take d off req _ ih => simp only [stored, List.map_cons, List.flatten_cons, List.length_append, List.length_take,
      Option.getD_some] at ih ⊢; omega

/-- C40.  It never returns before: with fewer than `xlen` bytes delivered, or with the device never opened, it waits. -/
theorem C40_does_not_return_early (isOpen : Bool) (opens : List Bool) (reads : List ReadResult) (mem : Bytes) (x xlen : Nat)
    (hm : x + xlen ≤ mem.length)
    (hfew : ((reads.map fun r => r.getD []).flatten).length < xlen ∨ (isOpen = false ∧ true ∉ opens)) :
    randombytes isOpen opens reads mem x xlen = some .waiting := by
  rcases hfew with hfew | ⟨rfl, hfew⟩
  · obtain ⟨o, ho, h⟩ := C40_fills_buffer isOpen opens reads mem x xlen hm
    cases o with
    | waiting => exact ho
    | returned a b c =>
      obtain ⟨used, h1, h2, _, h4, _⟩ := h a b c rfl
      exfalso
      have := From.stored_le h2
      rw [h1, List.map_append, List.flatten_append, List.length_append] at hfew
      omega
  · have : ∀ l : List Bool, true ∉ l → openLoop l = false := by
      intro l
      induction l with
      | nil => intro _; rfl
      | cons b l ih =>
        intro h
        cases b with
        | true => simp at h
        | false => exact ih (fun h' => h (List.mem_cons_of_mem _ h'))
    rw [randombytes, this opens hfew]
    rfl

/-- A short read, an error and the rest: the three bytes arrive in order, the neighbours stay. -/
example : randombytes false [false, true] [some [1], none, some [], some [2, 3, 4]] [9, 9, 9, 9, 9] 1 3 =
    some (.returned [9, 1, 2, 3, 9] [(1, 3, [1]), (2, 2, [2, 3])] []) := by decide

end Xmss
