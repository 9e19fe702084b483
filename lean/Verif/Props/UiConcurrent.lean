import Verif.Model.UiConcurrent
import Verif.Props.Ui
/-
C52: several runs of the sign tool on one key file.
-/
namespace Xmss

variable {P : Prims} {f : Family} {oid : Nat} {p : Params} {H : Bytes → Bytes}

/-- A run that nobody disturbs is `uiSign`: read, then write back. -/
theorem uiSign_is_compute_commit (junk : Nat → Bytes) (key m : Bytes) :
    uiSign P f junk (some key) (some m) = (do
      match ← uiSignCompute P f junk key m with
      | none => some { exit := -1, keyFile := some key, stdout := [] }
      | some r => do
        let file ← wr key r.pos r.key
        some { exit := 0, keyFile := some file, stdout := r.out }) := by
  simp only [uiSign, uiSignCompute, Option.bind_eq_bind]
  cases uiSignRead f key with
  | none => rfl
  | some x =>
    cases x with
    | none => rfl
    | some x =>
      obtain ⟨off, p, sk⟩ := x
      simp only [Option.bind_some]
      cases f.sign P sk (junk (p.sig_bytes + m.length)) (junk 0).length m with
      | none => rfl
      | some o =>
        simp only [Option.bind_some]
        cases rd o.sm 0 o.smlen with
        | none =>
          simp only [Option.bind_none]
          cases wr key (off + oidLen) ((o.sk.drop oidLen).take p.sk_bytes) <;> rfl
        | some out => simp only [Option.bind_some]

/-! ### Specification: which index does a run use? -/

/-- The index in the key file, and the index each run has used. -/
structure Indices where
  file : Nat
  used : Nat → Option Nat

/-- Reading uses the index in the file; writing back stores the successor of the index that this run has used. -/
def Indices.step (s : Indices) : ToolEvent → Indices
  | .read i => { s with used := fun j => if j = i then some s.file else s.used j }
  | .commit i => match s.used i with
    | none => s
    | some x => { s with file := x + 1 }

def Indices.after (s : Indices) (es : List ToolEvent) : Indices := es.foldl Indices.step s

/-- The runs in `is` one after the other. -/
def serial (is : List Nat) : List ToolEvent := is.flatMap fun i => [.read i, .commit i]

/-- The number of times that a key is written back. -/
def commits : List ToolEvent → Nat
  | [] => 0
  | .read _ :: es => commits es
  | .commit _ :: es => commits es + 1

/-- The state of the world that the indices describe. -/
def worldOf (p : Params) (H : Bytes → Bytes) (k : Key) (oid : Nat) (A T : Bytes) (msg : Nat → Bytes) (s : Indices) : World where
  file := A ++ k.sk p oid s.file ++ T
  mem := fun i => (s.used i).map fun x =>
    { pos := A.length + 4, key := (k.sk p oid (x + 1)).drop 4
      out := (suiteOf p H).sign k.skSeed k.skPrf k.root k.pubSeed x (msg i) ++ msg i }

theorem uiSignCompute_eq {oidp : Nat} {pp : Params} (hpp : f.parse oidp = some pp) (hp : f.parse oid = some p)
    (hH : coreHash P p.func p.n = some H) (junk : Nat → Bytes) (hj : Fresh junk) (pkb T m : Bytes) (hpk : pkb.length = pp.pk_bytes)
    (k : Key) (hk : k.Valid p) {i : Nat} (hi : i < 2 ^ p.full_height - 1) :
    uiSignCompute P f junk (Rfc.toByte oidp 4 ++ pkb ++ k.sk p oid i ++ T) m = some (some
      { pos := (Rfc.toByte oidp 4 ++ pkb).length + 4, key := (k.sk p oid (i + 1)).drop 4
        out := (suiteOf p H).sign k.skSeed k.skPrf k.root k.pubSeed i m ++ m }) := by
  obtain ⟨g, hskb, ho, _⟩ := Family.facts (P := P) hp
  have hHl := Family.hash_length hp hH
  have hfit := g.idx_fits
  have hjl := hj (p.sig_bytes + m.length)
  have hsl := sign_length g hHl k.skSeed k.skPrf k.root k.pubSeed i m
  have hread := uiSignRead_eq hpp hp pkb (k.sk p oid i) T hpk (Key.sk_length hk hskb oid i) (Key.sk_take k p oid i)
  have hc := sign_call hp hH k hk i (by omega) (junk (p.sig_bytes + m.length)) (junk 0).length m (by rw [hjl])
  simp only [nextKey, nextIdx, if_pos hi, if_pos (show i < 2 ^ p.full_height by omega)] at hc
  rw [List.drop_of_length_le (by rw [hjl]), List.append_nil] at hc
  have hr : ∀ x : Bytes, x.length = p.sig_bytes + m.length → rd x 0 (p.sig_bytes + m.length) = some x := by
    intro x hx
    rw [rd_some (by omega), List.drop_zero, List.take_of_length_le (by omega)]
  rw [uiSignCompute, hread]
  simp only [Option.bind_eq_bind, Option.bind_some, hc]
  rw [hr _ (by rw [List.length_append, hsl])]
  simp only [Option.bind_some, show oidLen = 4 from rfl, List.length_append, toByte_length, hpk]
  rw [List.take_of_length_le (by rw [List.length_drop, Key.sk_length hk hskb]; omega)]

theorem Indices.after_cons (s : Indices) (e : ToolEvent) (es : List ToolEvent) : s.after (e :: es) = (s.step e).after es := rfl
theorem Indices.after_append (s : Indices) (es es' : List ToolEvent) : s.after (es ++ es') = (s.after es).after es' := by
  simp [Indices.after]

/-- **C52 (all interleavings).**  For every usable key file, any number of runs and any interleaving of their steps (as
long as the key is not used up), every run computes a correct signature, namely with the index it found in the file; the
file always contains a well-formed key; and the indices are those of `Indices`. -/
theorem C52_all_interleavings {oidp : Nat} {pp : Params} (hpp : f.parse oidp = some pp) (hp : f.parse oid = some p)
    (hH : coreHash P p.func p.n = some H) (junk : Nat → Nat → Bytes) (hj : ∀ i, Fresh (junk i)) (msg : Nat → Bytes)
    (pkb T : Bytes) (hpk : pkb.length = pp.pk_bytes) (k : Key) (hk : k.Valid p) (es : List ToolEvent) :
    ∀ (s : Indices), s.file + commits es < 2 ^ p.full_height - 1 →
    (∀ i x, s.used i = some x → x + commits es < 2 ^ p.full_height - 1) →
    toolSteps P f junk msg (worldOf p H k oid (Rfc.toByte oidp 4 ++ pkb) T msg s) es =
      some (worldOf p H k oid (Rfc.toByte oidp 4 ++ pkb) T msg (s.after es)) := by
  obtain ⟨g, hskb, ho, _⟩ := Family.facts (P := P) hp
  induction es with
  | nil => intro s _ _; rfl
  | cons e es ih =>
    intro s h1 h2
    have step : toolStep P f junk msg (worldOf p H k oid (Rfc.toByte oidp 4 ++ pkb) T msg s) e =
        some (worldOf p H k oid (Rfc.toByte oidp 4 ++ pkb) T msg (s.step e)) := by
      cases e with
      | read i =>
        rw [toolStep, show (worldOf p H k oid (Rfc.toByte oidp 4 ++ pkb) T msg s).file =
            Rfc.toByte oidp 4 ++ pkb ++ k.sk p oid s.file ++ T from rfl,
          uiSignCompute_eq hpp hp hH (junk i) (hj i) pkb T (msg i) hpk k hk (by omega)]
        simp only [Option.bind_eq_bind, Option.bind_some, worldOf, Indices.step, Option.some.injEq, World.mk.injEq, true_and]
        funext j
        by_cases hji : j = i
        · subst hji; simp
        · simp [hji]
      | commit i =>
        simp only [toolStep, Indices.step]
        cases hu : s.used i with
        | none => simp only [worldOf, hu, Option.map_none]
        | some x =>
          simp only [worldOf, hu, Option.map_some]
          have e1 : Rfc.toByte oidp 4 ++ pkb ++ k.sk p oid s.file ++ T =
              (Rfc.toByte oidp 4 ++ pkb ++ Rfc.toByte oid 4) ++ (k.sk p oid s.file).drop 4 ++ T := by
            conv_lhs => rw [← List.take_append_drop 4 (k.sk p oid s.file), Key.sk_take]
            simp
          rw [e1, wr_append _ _ _ _ (by simp only [List.length_append, toByte_length])
            (by rw [List.length_drop, List.length_drop, Key.sk_length hk hskb, Key.sk_length hk hskb])]
          simp only [Option.bind_eq_bind, Option.bind_some, Option.some.injEq, World.mk.injEq, and_true]
          conv_rhs => rw [← List.take_append_drop 4 (k.sk p oid (x + 1)), Key.sk_take]
          simp
    rw [toolSteps, step]
    simp only [Option.bind_eq_bind, Option.bind_some]
    rw [Indices.after_cons]
    refine ih _ ?_ ?_
    · cases e with
      | read i => simp only [Indices.step]; exact h1
      | commit i =>
        simp only [Indices.step]
        rw [commits] at h1
        cases hu : s.used i with
        | none => simp only; omega
        | some x => simp only; have := h2 i x hu; rw [commits] at this; omega
    · intro i x hx
      cases e with
      | read j =>
        simp only [Indices.step] at hx
        split at hx
        · cases hx; exact h1
        · exact h2 i x hx
      | commit j =>
        have old : s.used i = some x → x + commits es < 2 ^ p.full_height - 1 := by
          intro h; have := h2 i x h; rw [commits] at this; omega
        simp only [Indices.step] at hx
        split at hx
        · exact old hx
        · exact old hx

/-- No run has started, the key file contains the index `idx`. -/
def Indices.start (idx : Nat) : Indices := ⟨idx, fun _ => none⟩

theorem commits_append (es es' : List ToolEvent) : commits (es ++ es') = commits es + commits es' := by
  induction es with
  | nil => simp [commits]
  | cons e es ih => cases e <;> simp [commits, ih]; omega

theorem commits_serial (is : List Nat) : commits (serial is) = is.length := by
  induction is with
  | nil => rfl
  | cons a is ih => rw [serial, List.flatMap_cons, commits_append, ← serial, ih]; simp [commits]; omega

theorem serial_after (is : List Nat) : ∀ (s : Indices), is.Nodup →
    (s.after (serial is)).file = s.file + is.length ∧
    (∀ j i, is[j]? = some i → (s.after (serial is)).used i = some (s.file + j)) ∧
    ∀ i, i ∉ is → (s.after (serial is)).used i = s.used i := by
  induction is with
  | nil => intro s _; exact ⟨rfl, fun j i h => by simp at h, fun _ _ => rfl⟩
  | cons a is ih =>
    intro s hn
    obtain ⟨ha, hn⟩ := List.nodup_cons.mp hn
    have e : s.after (serial (a :: is)) = ((s.step (.read a)).step (.commit a)).after (serial is) := by
      rw [serial, List.flatMap_cons, Indices.after_append]; rfl
    have e2 : (s.step (.read a)).step (.commit a) = ⟨s.file + 1, fun j => if j = a then some s.file else s.used j⟩ := by
      simp [Indices.step]
    obtain ⟨h1, h2, h3⟩ := ih ((s.step (.read a)).step (.commit a)) hn
    rw [e]
    rw [e2] at h1 h2 h3 ⊢
    refine ⟨?_, ?_, ?_⟩
    · rw [h1, List.length_cons]; simp only; omega
    · intro j i hj
      cases j with
      | zero =>
        simp only [List.getElem?_cons_zero, Option.some.injEq] at hj
        subst hj
        rw [h3 a ha]; simp
      | succ j =>
        rw [List.getElem?_cons_succ] at hj
        rw [h2 j i hj]; simp only; congr 1; omega
    · intro i hi
      rw [List.mem_cons, not_or] at hi
      rw [h3 i hi.2]; simp [hi.1]

/-- The signed message that run `i` has produced starts with `toByte x`. -/
def Wrote (p : Params) (w : World) (msg : Nat → Bytes) (i x : Nat) : Prop :=
  ∃ r, w.mem i = some r ∧ r.out.take p.index_bytes = Rfc.toByte x p.index_bytes ∧ r.out.drop p.sig_bytes = msg i

theorem worldOf_wrote (g : p.Good) (hH : ∀ x, (H x).length = p.n) {k : Key} {A T : Bytes} {msg : Nat → Bytes} {s : Indices} {i x : Nat}
    (h : s.used i = some x) : Wrote p (worldOf p H k oid A T msg s) msg i x := by
  refine ⟨_, by simp only [worldOf, h, Option.map_some]; rfl, ?_, ?_⟩
  · simp only [Rfc.Suite.sign, List.append_assoc]
    exact List.take_left' (toByte_length _ _)
  · exact List.drop_left' (sign_length g hH _ _ _ _ _ _)

/-- **C52, true part.**  Runs that do not overlap use different indices: run number `j` uses `idx + j`. -/
theorem C52_serial_runs_partial {oidp : Nat} {pp : Params} (hpp : f.parse oidp = some pp) (hp : f.parse oid = some p)
    (junk : Nat → Nat → Bytes) (hj : ∀ i, Fresh (junk i)) (msg : Nat → Bytes) (pkb T : Bytes) (hpk : pkb.length = pp.pk_bytes)
    (k : Key) (hk : k.Valid p) (idx : Nat) (is : List Nat) (hn : is.Nodup) (hroom : idx + is.length < 2 ^ p.full_height - 1) :
    ∃ w, toolSteps P f junk msg ⟨Rfc.toByte oidp 4 ++ pkb ++ k.sk p oid idx ++ T, fun _ => none⟩ (serial is) = some w ∧
      w.file = Rfc.toByte oidp 4 ++ pkb ++ k.sk p oid (idx + is.length) ++ T ∧
      ∀ j i, is[j]? = some i → Wrote p w msg i (idx + j) := by
  obtain ⟨g, hskb, ho, H, hH⟩ := Family.facts (P := P) hp
  have hHl := Family.hash_length hp hH
  have h := C52_all_interleavings hpp hp hH junk hj msg pkb T hpk k hk (serial is) (Indices.start idx)
    (by rw [commits_serial]; exact hroom) (by intro i x h; cases h)
  obtain ⟨h1, h2, _⟩ := serial_after is (Indices.start idx) hn
  refine ⟨_, h, ?_, fun j i hji => worldOf_wrote g hHl (h2 j i hji)⟩
  show Rfc.toByte oidp 4 ++ pkb ++ k.sk p oid ((Indices.start idx).after (serial is)).file ++ T = _
  rw [h1]; rfl

theorem Indices.used_keep (s : Indices) {i : Nat} (es : List ToolEvent) (h : ToolEvent.read i ∉ es) :
    (s.after es).used i = s.used i := by
  induction es generalizing s with
  | nil => rfl
  | cons e es ih =>
    rw [List.mem_cons, not_or] at h
    rw [Indices.after_cons, ih _ h.2]
    cases e with
    | read j =>
      have : i ≠ j := fun e => h.1 (by rw [e])
      simp [Indices.step, this]
    | commit j => simp only [Indices.step]; split <;> rfl

theorem Indices.file_keep (s : Indices) (es : List ToolEvent) (h : ∀ i, ToolEvent.commit i ∉ es) : (s.after es).file = s.file := by
  induction es generalizing s with
  | nil => rfl
  | cons e es ih =>
    rw [Indices.after_cons, ih _ (fun i hi => h i (by simp [hi]))]
    cases e with
    | read j => rfl
    | commit j => exact absurd (by simp) (h j)

/-- **C52 is false.**  Whenever two runs `a`, `b` have both read the key file with no write in between, whatever happens
before, in between and afterwards, they have signed their two messages with the same index. -/
theorem C52_fails {oidp : Nat} {pp : Params} (hpp : f.parse oidp = some pp) (hp : f.parse oid = some p)
    (junk : Nat → Nat → Bytes) (hj : ∀ i, Fresh (junk i)) (msg : Nat → Bytes) (pkb T : Bytes) (hpk : pkb.length = pp.pk_bytes)
    (k : Key) (hk : k.Valid p) (idx a b : Nat) (hab : a ≠ b) (pre mid post : List ToolEvent)
    (hmid : ∀ i, ToolEvent.commit i ∉ mid) (ha : ToolEvent.read a ∉ mid ++ post) (hb : ToolEvent.read b ∉ post)
    (hroom : idx + commits (pre ++ mid ++ post) < 2 ^ p.full_height - 1) :
    ∃ w x, toolSteps P f junk msg ⟨Rfc.toByte oidp 4 ++ pkb ++ k.sk p oid idx ++ T, fun _ => none⟩
        (pre ++ [.read a] ++ mid ++ [.read b] ++ post) = some w ∧
      Wrote p w msg a x ∧ Wrote p w msg b x := by
  obtain ⟨g, hskb, ho, H, hH⟩ := Family.facts (P := P) hp
  have hHl := Family.hash_length hp hH
  have h := C52_all_interleavings hpp hp hH junk hj msg pkb T hpk k hk (pre ++ [.read a] ++ mid ++ [.read b] ++ post)
    (Indices.start idx) (by simp only [commits_append, commits, Indices.start]; simp only [commits_append] at hroom; omega)
    (by intro i x h; cases h)
  rw [List.mem_append, not_or] at ha
  refine ⟨_, ((Indices.start idx).after pre).file, h, worldOf_wrote g hHl ?_, worldOf_wrote g hHl ?_⟩
  · rw [Indices.after_append, Indices.used_keep _ _ ha.2, Indices.after_append, Indices.used_keep _ _ (by simpa using hab),
      Indices.after_append, Indices.used_keep _ _ ha.1, Indices.after_append]
    simp [Indices.after, Indices.step]
  · rw [Indices.after_append, Indices.used_keep _ _ hb, Indices.after_append, Indices.after_append, Indices.after_append]
    have := Indices.file_keep (((Indices.start idx).after pre).after [.read a]) mid hmid
    simp only [Indices.after, List.foldl_cons, List.foldl_nil, Indices.step, if_pos] at this ⊢
    rw [this]

/-- **C52 is false, second way.**  A run `a` that is slow takes the index back: after it has written, a run `b` that
overlaps with no other run uses the index `idx + 1` that the second of the runs in between has already used. -/
theorem C52_fails_rollback {oidp : Nat} {pp : Params} (hpp : f.parse oidp = some pp) (hp : f.parse oid = some p)
    (junk : Nat → Nat → Bytes) (hj : ∀ i, Fresh (junk i)) (msg : Nat → Bytes) (pkb T : Bytes) (hpk : pkb.length = pp.pk_bytes)
    (k : Key) (hk : k.Valid p) (idx a b : Nat) (is : List Nat) (hn : is.Nodup) (ha : a ∉ is) (hb : b ∉ is) (hab : a ≠ b)
    (hroom : idx + is.length + 1 < 2 ^ p.full_height - 1) :
    ∃ w, toolSteps P f junk msg ⟨Rfc.toByte oidp 4 ++ pkb ++ k.sk p oid idx ++ T, fun _ => none⟩
        ([.read a] ++ serial is ++ [.commit a] ++ [.read b]) = some w ∧
      Wrote p w msg a idx ∧ (∀ j i, is[j]? = some i → Wrote p w msg i (idx + j)) ∧ Wrote p w msg b (idx + 1) := by
  obtain ⟨g, hskb, ho, H, hH⟩ := Family.facts (P := P) hp
  have hHl := Family.hash_length hp hH
  have h := C52_all_interleavings hpp hp hH junk hj msg pkb T hpk k hk ([.read a] ++ serial is ++ [.commit a] ++ [.read b])
    (Indices.start idx) (by simp only [commits_append, commits, commits_serial, Indices.start]; omega)
    (by intro i x h; cases h)
  obtain ⟨h1, h2, h3⟩ := serial_after is ((Indices.start idx).step (.read a)) hn
  have hu : (((Indices.start idx).step (.read a)).after (serial is)).used a = some idx := by
    rw [h3 a ha]; simp [Indices.step, Indices.start]
  have e : (Indices.start idx).after ([.read a] ++ serial is ++ [.commit a] ++ [.read b]) =
      { file := idx + 1
        used := fun j => if j = b then some (idx + 1) else (((Indices.start idx).step (.read a)).after (serial is)).used j } := by
    rw [Indices.after_append, Indices.after_append, Indices.after_append,
      show (Indices.start idx).after [.read a] = (Indices.start idx).step (.read a) from rfl]
    show (Indices.step _ (.commit a)).step (.read b) = _
    simp only [Indices.step] at hu ⊢
    rw [hu]
  rw [e] at h
  refine ⟨_, h, worldOf_wrote g hHl ?_, ?_, worldOf_wrote g hHl ?_⟩
  · simp only [if_neg hab]; exact hu
  · intro j i hji
    refine worldOf_wrote g hHl ?_
    have hib : i ≠ b := fun e => hb (e ▸ List.mem_of_getElem? hji)
    simp only [if_neg hib]
    exact h2 j i hji
  · simp

/-! ### The hypotheses can be met -/

-- Two runs of XMSS-SHA2_10_256 that overlap completely, on a key with index 5.
example (P : Prims) (msg : Nat → Bytes) : ∃ p, Family.xmss.parse 1 = some p ∧ ∃ w x,
    toolSteps P .xmss (fun _ k => List.replicate k 0) msg
      ⟨Rfc.toByte 1 4 ++ List.replicate p.pk_bytes 5 ++ (Key.zero p).sk p 1 5 ++ [], fun _ => none⟩
      [.read 0, .read 1, .commit 0, .commit 1] = some w ∧ Wrote p w msg 0 x ∧ Wrote p w msg 1 x := by
  obtain ⟨p, hp, h⟩ : ∃ p, Family.xmss.parse 1 = some p ∧ 5 + 2 < 2 ^ p.full_height - 1 := ⟨_, rfl, by decide⟩
  exact ⟨p, hp, C52_fails (P := P) hp hp (fun _ k => List.replicate k 0) (fun _ k => by simp) msg (List.replicate p.pk_bytes 5) []
    (by simp) (Key.zero p) (Key.zero_valid p) 5 0 1 (by omega) [] [] [.commit 0, .commit 1] (by simp) (by simp) (by simp) h⟩

end Xmss
