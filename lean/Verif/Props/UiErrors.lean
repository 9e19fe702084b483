import Verif.Model.UiErrors
import Verif.Props.UiFast
/-
C77: what the command line tools do when the system fails.
-/
namespace Xmss

variable {P : Prims} {f : Family} {oid : Nat} {p pp : Params} {H : Bytes → Bytes}

/-- Nothing fails in this run of the sign tool: two arguments, a message file of which the size can be found out and which is read
completely, enough memory, and everything written arrives (`sk`, `out`: how many bytes are written to the two files). -/
structure SignEnv.Fine (e : SignEnv) (sk out : Nat) : Prop where
  args : e.args = 2
  seekable : e.seekable = true
  mallocM : e.mallocM = true
  mallocSm : e.mallocSm = true
  got : ∀ m, e.msgFile = some m → m.length ≤ e.gotM
  key : sk ≤ e.keyWritten
  out : out ≤ e.outWritten

namespace UiErrors

theorem run_ext {r : SignRun} {a : Int} {b : Option Bytes} {c : Bytes} (h1 : r.exit = a) (h2 : r.keyFile = b) (h3 : r.stdout = c) :
    r = { exit := a, keyFile := b, stdout := c } := by
  rw [← h1, ← h2, ← h3]

/-- One run on a readable key file and message, in terms of the call of the library. -/
theorem run_eq {read : Bytes → Option (Option (Nat × Params × Bytes))} {sign : Bytes → Bytes → Nat → Bytes → Option SignOut}
    {junk junkM : Nat → Bytes} (hj : Fresh junkM) {l0 : Nat} {e : SignEnv} {key m sk : Bytes} {off : Nat} (h2 : e.args = 2)
    (hk : e.keyFile = some key) (hm : e.msgFile = some m) (hs : e.seekable = true) (hM : e.mallocM = true) (hS : e.mallocSm = true)
    (hr : read key = some (some (off, p, sk))) :
    uiSignEnv read sign junk junkM l0 e = (do
      let o ← sign sk (junk (p.sig_bytes + m.length)) l0 (m.take e.gotM ++ (junkM m.length).drop (min e.gotM m.length))
      let key ← wr key (off + oidLen) (((o.sk.drop oidLen).take p.sk_bytes).take e.keyWritten)
      let out ← rd o.sm 0 o.smlen
      some { exit := 0, keyFile := some key, stdout := out.take e.outWritten }) := by
  rw [uiSignEnv, if_neg (by simp [h2]), hk]
  simp only [hm, hr, Option.bind_eq_bind, Option.bind_some, ftellSize, hs, hM, hS, if_true]
  rw [if_neg (by simp)]

theorem buf_all {junkM : Nat → Bytes} (hj : Fresh junkM) {m : Bytes} {g : Nat} (h : m.length ≤ g) :
    m.take g ++ (junkM m.length).drop (min g m.length) = m := by
  rw [List.take_of_length_le h, Nat.min_eq_right h, List.drop_of_length_le (by rw [hj]), List.append_nil]

end UiErrors
open UiErrors

/-- **C77 (without failures).**  If nothing fails, the runs are those of the other properties of the tools, in both builds. -/
theorem C77_no_failure (junk junkM : Nat → Bytes) (hjM : Fresh junkM) (e : SignEnv) (r : SignRun) (sk : Nat) (l0 : Nat)
    (hf : e.Fine sk r.stdout.length) :
    ((∀ key off p x, e.keyFile = some key → uiSignRead f key = some (some (off, p, x)) → p.sk_bytes ≤ sk) →
      uiSign P f junk e.keyFile e.msgFile = some r → uiSignEnv (uiSignRead f) (f.sign P) junk junkM (junk 0).length e = some r) ∧
    ((∀ key off p x, e.keyFile = some key → uiSignReadFast f key = some (some (off, p, x)) → p.sk_bytes ≤ sk) →
      uiSignFast P f junk l0 e.keyFile e.msgFile = some r →
      uiSignEnv (uiSignReadFast f) (fun sk sm l m => (uiSignCallFast P f sk sm l m).map (·.toSignOut)) junk junkM l0 e = some r) := by
  have tk : ∀ (x : Bytes) (n : Nat), n ≤ sk → (x.take n).take e.keyWritten = x.take n := by
    intro x n h
    exact List.take_of_length_le (by rw [List.length_take]; have := hf.key; omega)
  constructor
  · intro hsk h
    rw [uiSign.eq_def] at h
    cases hk : e.keyFile with
    | none =>
      rw [hk] at h
      rw [uiSignEnv, if_neg (by simp [hf.args]), hk]; exact h
    | some key =>
      cases hm : e.msgFile with
      | none =>
        rw [hk, hm] at h
        rw [uiSignEnv, if_neg (by simp [hf.args]), hk]; simp only [hm]; exact h
      | some m =>
        rw [hk, hm] at h
        simp only [Option.bind_eq_bind] at h
        cases hr : uiSignRead f key with
        | none => rw [hr] at h; cases h
        | some x =>
          rw [hr] at h
          cases x with
          | none =>
            rw [uiSignEnv, if_neg (by simp [hf.args]), hk]
            simp only [hm, hr, Option.bind_eq_bind, Option.bind_some]
            exact h
          | some y =>
            obtain ⟨off, p, x⟩ := y
            rw [run_eq hjM hf.args hk hm hf.seekable hf.mallocM hf.mallocSm hr, buf_all hjM (hf.got m hm)]
            simp only [Option.bind_eq_bind, Option.bind_some] at h ⊢
            cases ho : f.sign P x (junk (p.sig_bytes + m.length)) (junk 0).length m with
            | none => rw [ho] at h; cases h
            | some o =>
              rw [ho] at h
              simp only [Option.bind_some] at h ⊢
              rw [tk _ _ (hsk key off p x hk hr)]
              cases hw : wr key (off + oidLen) ((o.sk.drop oidLen).take p.sk_bytes) with
              | none => rw [hw] at h; cases h
              | some key' =>
                rw [hw] at h
                simp only [Option.bind_some] at h ⊢
                cases hrd : rd o.sm 0 o.smlen with
                | none => rw [hrd] at h; cases h
                | some out =>
                  rw [hrd] at h
                  simp only [Option.bind_some] at h ⊢
                  rw [← h]
                  have : r.stdout = out := by rw [← Option.some.inj h]
                  rw [List.take_of_length_le (by rw [← this]; exact hf.out)]
  · intro hsk h
    rw [uiSignFast.eq_def] at h
    cases hk : e.keyFile with
    | none =>
      rw [hk] at h
      rw [uiSignEnv, if_neg (by simp [hf.args]), hk]; exact h
    | some key =>
      cases hm : e.msgFile with
      | none =>
        rw [hk, hm] at h
        rw [uiSignEnv, if_neg (by simp [hf.args]), hk]; simp only [hm]; exact h
      | some m =>
        rw [hk, hm] at h
        simp only [Option.bind_eq_bind] at h
        cases hr : uiSignReadFast f key with
        | none => rw [hr] at h; cases h
        | some x =>
          rw [hr] at h
          cases x with
          | none =>
            rw [uiSignEnv, if_neg (by simp [hf.args]), hk]
            simp only [hm, hr, Option.bind_eq_bind, Option.bind_some]
            exact h
          | some y =>
            obtain ⟨off, p, x⟩ := y
            rw [run_eq hjM hf.args hk hm hf.seekable hf.mallocM hf.mallocSm hr, buf_all hjM (hf.got m hm)]
            simp only [Option.bind_eq_bind, Option.bind_some] at h ⊢
            cases ho : uiSignCallFast P f x (junk (p.sig_bytes + m.length)) l0 m with
            | none => rw [ho] at h; cases h
            | some o =>
              rw [ho] at h
              simp only [Option.bind_some, Option.map_some] at h ⊢
              rw [tk _ _ (hsk key off p x hk hr)]
              cases hw : wr key (off + oidLen) ((o.sk.drop oidLen).take p.sk_bytes) with
              | none => rw [hw] at h; cases h
              | some key' =>
                rw [hw] at h
                simp only [Option.bind_some] at h ⊢
                cases hrd : rd o.sm 0 o.smlen with
                | none => rw [hrd] at h; cases h
                | some out =>
                  rw [hrd] at h
                  simp only [Option.bind_some] at h ⊢
                  rw [← h]
                  have : r.stdout = out := by rw [← Option.some.inj h]
                  rw [List.take_of_length_le (by rw [← this]; exact hf.out)]

/-- **C77 (what is reported).**  A wrong number of arguments, a file that cannot be opened and an unknown OID are reported: exit status -1,
nothing is written.  These are the only cases with an exit status other than 0. -/
theorem C77_reported_partial (read : Bytes → Option (Option (Nat × Params × Bytes)))
    (sign : Bytes → Bytes → Nat → Bytes → Option SignOut) (junk junkM : Nat → Bytes) (l0 : Nat) (e : SignEnv) :
    (e.args ≠ 2 ∨ e.keyFile = none ∨ e.msgFile = none ∨ (∃ key, e.keyFile = some key ∧ read key = some none) →
      uiSignEnv read sign junk junkM l0 e = some { exit := -1, keyFile := e.keyFile, stdout := [] }) ∧
    ∀ r, uiSignEnv read sign junk junkM l0 e = some r →
      r.exit = 0 ∨ (r = { exit := -1, keyFile := e.keyFile, stdout := [] } ∧
        (e.args ≠ 2 ∨ e.keyFile = none ∨ e.msgFile = none ∨ ∃ key, e.keyFile = some key ∧ read key = some none)) := by
  rw [uiSignEnv]
  by_cases h2 : e.args ≠ 2
  · rw [if_pos h2]
    exact ⟨fun _ => rfl, fun r hr => Or.inr ⟨(Option.some.inj hr).symm, Or.inl h2⟩⟩
  · rw [if_neg h2]
    cases hk : e.keyFile with
    | none => exact ⟨fun _ => rfl, fun r hr => Or.inr ⟨(Option.some.inj hr).symm, Or.inr (Or.inl rfl)⟩⟩
    | some key =>
      simp only
      cases hm : e.msgFile with
      | none => exact ⟨fun _ => rfl, fun r hr => Or.inr ⟨(Option.some.inj hr).symm, Or.inr (Or.inr (Or.inl rfl))⟩⟩
      | some m =>
        simp only [Option.bind_eq_bind]
        cases hr : read key with
        | none =>
          refine ⟨?_, fun r hr => by cases hr⟩
          rintro (h | h | h | ⟨key', h, h'⟩)
          · exact absurd h h2
          · cases h
          · cases h
          · cases h; rw [hr] at h'; cases h'
        | some x =>
          cases x with
          | none =>
            exact ⟨fun _ => rfl, fun r h => Or.inr ⟨(Option.some.inj h).symm, Or.inr (Or.inr (Or.inr ⟨key, rfl, hr⟩))⟩⟩
          | some y =>
            refine ⟨?_, fun r h => Or.inl ?_⟩
            · rintro (h | h | h | ⟨key', h, h'⟩)
              · exact absurd h h2
              · cases h
              · cases h
              · cases h; rw [hr] at h'; cases h'
            · simp only [Option.bind_some] at h
              split at h
              · cases h
              · obtain ⟨o, _, h⟩ := Option.bind_eq_some_iff.mp h
                obtain ⟨k', _, h⟩ := Option.bind_eq_some_iff.mp h
                obtain ⟨out, _, h⟩ := Option.bind_eq_some_iff.mp h
                rw [← Option.some.inj h]

/-- **C77 (writing is not checked).**  Whatever part of the key and of the signed message arrives, the exit status is the same, what
arrived of one file does not influence the other, and each is a beginning of what it should be. -/
theorem C77_exit_status_ignores_writes (read : Bytes → Option (Option (Nat × Params × Bytes)))
    (sign : Bytes → Bytes → Nat → Bytes → Option SignOut) (junk junkM : Nat → Bytes) (l0 : Nat) (e : SignEnv) (r : SignRun)
    (h : uiSignEnv read sign junk junkM l0 e = some r) (a b : Nat) (ha : a ≤ e.keyWritten) :
    ∃ r', uiSignEnv read sign junk junkM l0 { e with keyWritten := a, outWritten := b } = some r' ∧ r'.exit = r.exit ∧
      (b ≤ e.outWritten → r'.stdout = r.stdout.take b) ∧ (a = e.keyWritten → r'.keyFile = r.keyFile) ∧
      (a = 0 → r'.keyFile = e.keyFile) := by
  rw [uiSignEnv] at h ⊢
  simp only at h ⊢
  by_cases h2 : e.args ≠ 2
  · rw [if_pos h2] at h ⊢
    cases h
    exact ⟨_, rfl, rfl, fun _ => by simp, fun _ => rfl, fun _ => rfl⟩
  · rw [if_neg h2] at h ⊢
    cases hk : e.keyFile with
    | none =>
      rw [hk] at h; cases h
      exact ⟨_, rfl, rfl, fun _ => by simp, fun _ => rfl, fun _ => rfl⟩
    | some key =>
      rw [hk] at h
      simp only at h ⊢
      cases hm : e.msgFile with
      | none =>
        rw [hm] at h; cases h
        exact ⟨_, rfl, rfl, fun _ => by simp, fun _ => rfl, fun _ => rfl⟩
      | some m =>
        rw [hm] at h
        simp only [Option.bind_eq_bind] at h ⊢
        cases hr : read key with
        | none => rw [hr] at h; cases h
        | some x =>
          rw [hr] at h
          cases x with
          | none =>
            cases h
            exact ⟨_, rfl, rfl, fun _ => by simp, fun _ => rfl, fun _ => rfl⟩
          | some y =>
            simp only [Option.bind_some] at h ⊢
            by_cases hc : e.mallocSm = false ∨ (ftellSize e.seekable m ≠ 0 ∧ (e.mallocM = false ∨ e.seekable = false))
            · rw [if_pos hc] at h; cases h
            · rw [if_neg hc] at h
              rw [if_neg hc]
              obtain ⟨o, ho, h⟩ := Option.bind_eq_some_iff.mp h
              obtain ⟨k', hw, h⟩ := Option.bind_eq_some_iff.mp h
              obtain ⟨out, hrd, h⟩ := Option.bind_eq_some_iff.mp h
              rw [ho]
              simp only [Option.bind_some]
              have hw' : ∃ k'', wr key (y.1 + oidLen) (((o.sk.drop oidLen).take y.2.1.sk_bytes).take a) = some k'' ∧
                  (a = e.keyWritten → k'' = k') ∧ (a = 0 → k'' = key) := by
                rw [wr] at hw ⊢
                split at hw
                · next hle =>
                  have hla : (((o.sk.drop oidLen).take y.2.1.sk_bytes).take a).length ≤
                      (((o.sk.drop oidLen).take y.2.1.sk_bytes).take e.keyWritten).length := by
                    simp only [List.length_take]; omega
                  rw [if_pos (le_trans (Nat.add_le_add_left hla _) hle)]
                  refine ⟨_, rfl, ?_, ?_⟩
                  · rintro rfl; exact Option.some.inj hw
                  · rintro rfl; simp
                · cases hw
              obtain ⟨k'', e1, e2, e3⟩ := hw'
              rw [e1, hrd]
              cases h
              exact ⟨_, rfl, rfl, fun hb => by simp [List.take_take, Nat.min_eq_left hb], fun he => by rw [← e2 he],
                fun he => by rw [e3 he]⟩


/-! ### The key is not stored -/

/-- The key file after some runs. -/
def keyAfter (file : Option Bytes) (rs : List SignRun) : Option Bytes := (rs.getLast?.map SignRun.keyFile).getD file

/-- Nothing fails except that no byte of the key reaches its file. -/
def keyNotStored (key m : Bytes) (out : Nat) : SignEnv where
  args := 2
  keyFile := some key
  msgFile := some m
  seekable := true
  mallocM := true
  mallocSm := true
  gotM := m.length
  keyWritten := 0
  outWritten := out

namespace UiErrors

theorem keyAfter_cons (file : Option Bytes) (r : SignRun) (rs : List SignRun) : keyAfter file (r :: rs) = keyAfter r.keyFile rs := by
  cases rs with
  | nil => rfl
  | cons a l =>
    rw [keyAfter, keyAfter, List.getLast?_cons_cons]
    cases h : (a :: l).getLast? with
    | none => simp at h
    | some x => rfl

theorem toolRuns_append (t : ToolRun) (ts : List ToolRun) : ∀ (file : Option Bytes) (l : List SignRun),
    toolRuns P f file (ts ++ [t]) = some l →
    ∃ rs r, toolRuns P f file ts = some rs ∧ uiSign P f t.junk (keyAfter file rs) (some t.msg) = some r ∧ l = rs ++ [r] := by
  induction ts with
  | nil =>
    intro file l h
    rw [List.nil_append, toolRuns] at h
    obtain ⟨r, h1, h⟩ := Option.bind_eq_some_iff.mp h
    cases h
    exact ⟨[], r, rfl, h1, rfl⟩
  | cons t0 ts ih =>
    intro file l h
    rw [List.cons_append, toolRuns] at h
    obtain ⟨r0, h1, h⟩ := Option.bind_eq_some_iff.mp h
    obtain ⟨l', h2, h⟩ := Option.bind_eq_some_iff.mp h
    cases h
    obtain ⟨rs, r, e1, e2, rfl⟩ := ih _ _ h2
    refine ⟨r0 :: rs, r, ?_, by rw [keyAfter_cons]; exact e2, rfl⟩
    rw [toolRuns, h1]
    show Option.bind (toolRuns P f r0.keyFile ts) _ = _
    rw [e1]; rfl

theorem toolRunsFast_append (t : ToolRun) (ts : List ToolRun) : ∀ (file : Option Bytes) (l : List SignRun),
    toolRunsFast P f file (ts ++ [t]) = some l →
    ∃ rs r, toolRunsFast P f file ts = some rs ∧ uiSignFast P f t.junk t.smlen0 (keyAfter file rs) (some t.msg) = some r ∧
      l = rs ++ [r] := by
  induction ts with
  | nil =>
    intro file l h
    rw [List.nil_append, toolRunsFast] at h
    obtain ⟨r, h1, h⟩ := Option.bind_eq_some_iff.mp h
    cases h
    exact ⟨[], r, rfl, h1, rfl⟩
  | cons t0 ts ih =>
    intro file l h
    rw [List.cons_append, toolRunsFast] at h
    obtain ⟨r0, h1, h⟩ := Option.bind_eq_some_iff.mp h
    obtain ⟨l', h2, h⟩ := Option.bind_eq_some_iff.mp h
    cases h
    obtain ⟨rs, r, e1, e2, rfl⟩ := ih _ _ h2
    refine ⟨r0 :: rs, r, ?_, by rw [keyAfter_cons]; exact e2, rfl⟩
    rw [toolRunsFast, h1]
    show Option.bind (toolRunsFast P f r0.keyFile ts) _ = _
    rw [e1]; rfl

/-- The verification tool looks at the public key only. -/
theorem uiOpen_take (junk : Nat → Bytes) (oid : Nat) (hp : f.parse oid = some p) (key key' sm : Bytes)
    (hl : 4 + p.pk_bytes ≤ key.length) (hl' : 4 + p.pk_bytes ≤ key'.length) (h : key.take (4 + p.pk_bytes) = key'.take (4 + p.pk_bytes))
    (ho : key.take 4 = Rfc.toByte oid 4) (ho8 : oid < 2 ^ 8) :
    uiOpen P f junk (some key) (some sm) = uiOpen P f junk (some key') (some sm) := by
  have ho' : key'.take 4 = Rfc.toByte oid 4 := by
    rw [← ho, ← Nat.min_eq_left (show 4 ≤ 4 + p.pk_bytes by omega), ← List.take_take, ← List.take_take, h]
  have r : ∀ x : Bytes, 4 + p.pk_bytes ≤ x.length → rd x 0 oidLen = some (x.take 4) ∧ rd x 0 (oidLen + p.pk_bytes) = some (x.take (4 + p.pk_bytes)) := by
    intro x hx
    constructor
    · rw [rd, if_pos (by simp only [oidLen]; omega)]; rfl
    · rw [rd, if_pos (by simp only [oidLen]; omega)]; rfl
  rw [uiOpen, uiOpen, (r key hl).1, (r key' hl').1, ho, ho']
  simp only [Option.bind_eq_bind, Option.bind_some, bytesToUll_oid ho8, hp, (r key hl).2, (r key' hl').2, h]

end UiErrors

/-- **C77 (a key file that is not written, both builds).**  If no byte of the new key reaches the file, everything else is as if it had:
the exit status, and the signed message on stdout. -/
theorem C77_key_not_stored (junk junkM : Nat → Bytes) (hjM : Fresh junkM) (key m : Bytes) (r : SignRun) (l0 : Nat) :
    (uiSign P f junk (some key) (some m) = some r →
      uiSignEnv (uiSignRead f) (f.sign P) junk junkM (junk 0).length (keyNotStored key m r.stdout.length) =
        some { r with keyFile := some key }) ∧
    (uiSignFast P f junk l0 (some key) (some m) = some r →
      uiSignEnv (uiSignReadFast f) (fun sk sm l m => (uiSignCallFast P f sk sm l m).map (·.toSignOut)) junk junkM l0
        (keyNotStored key m r.stdout.length) = some { r with keyFile := some key }) := by
  have big : ∀ (read : Bytes → Option (Option (Nat × Params × Bytes))), ∃ N, ∀ key' off p x, some key = some key' →
      read key' = some (some (off, p, x)) → p.sk_bytes ≤ N := by
    intro read
    cases h : read key with
    | none => exact ⟨0, fun key' off p x e h' => by cases e; rw [h] at h'; cases h'⟩
    | some y =>
      cases y with
      | none => exact ⟨0, fun key' off p x e h' => by cases e; rw [h] at h'; cases h'⟩
      | some z => exact ⟨z.2.1.sk_bytes, fun key' off p x e h' => by cases e; rw [h] at h'; cases h'; exact le_refl _⟩
  have fin : ∀ N, ({ keyNotStored key m r.stdout.length with keyWritten := N } : SignEnv).Fine N r.stdout.length := fun N =>
    ⟨rfl, rfl, rfl, rfl, fun m' hm => by cases hm; exact le_refl _, le_refl _, le_refl _⟩
  constructor
  · intro h
    obtain ⟨N, hN⟩ := big (uiSignRead f)
    have h1 := (C77_no_failure (P := P) (f := f) junk junkM hjM _ r N 0 (fin N)).1 hN h
    obtain ⟨r', e1, e2, e3, _, e5⟩ := C77_exit_status_ignores_writes _ _ _ _ _ _ _ h1 0 r.stdout.length (Nat.zero_le _)
    have := e3 (le_refl _)
    rw [List.take_length] at this
    have e5 : r'.keyFile = some key := e5 rfl
    exact e1.trans (congrArg some (run_ext e2 e5 this))
  · intro h
    obtain ⟨N, hN⟩ := big (uiSignReadFast f)
    have h1 := (C77_no_failure (P := P) (f := f) junk junkM hjM _ r N l0 (fin N)).2 hN h
    obtain ⟨r', e1, e2, e3, _, e5⟩ := C77_exit_status_ignores_writes _ _ _ _ _ _ _ h1 0 r.stdout.length (Nat.zero_le _)
    have := e3 (le_refl _)
    rw [List.take_length] at this
    have e5 : r'.keyFile = some key := e5 rfl
    exact e1.trans (congrArg some (run_ext e2 e5 this))

/-- **C77 fails (simple build).**  For every generated key file and after any number of runs: a run whose key does not reach the file
exits with status 0, the verification tool accepts its output, and the next run signs its message with the same one-time key. -/
theorem C77_fails (name : String) (hn : f.strToOid name = some oid) (hp : f.parse oid = some p)
    (junk seed junkM : Nat → Bytes) (hj : Fresh junk) (hjM : Fresh junkM) (hs : (seed p.n).length = 3 * p.n) :
    ∃ file, uiKeypair P f junk seed [name] = some { exit := 0, stdout := file } ∧
      ∀ (ts : List ToolRun) (t t' : ToolRun), (∀ x ∈ ts ++ [t, t'], Fresh x.junk ∧ p.sig_bytes + x.msg.length < 2 ^ 64) →
        ts.length + 1 ≤ 2 ^ p.full_height - 1 →
        ∃ rs key r r', toolRuns P f (some file) ts = some rs ∧ keyAfter (some file) rs = some key ∧
          uiSignEnv (uiSignRead f) (f.sign P) t.junk junkM (t.junk 0).length
            (keyNotStored key t.msg (p.sig_bytes + t.msg.length)) = some r ∧ r.exit = 0 ∧ r.keyFile = some key ∧
          uiSign P f t'.junk r.keyFile (some t'.msg) = some r' ∧ r'.exit = 0 ∧
          r.stdout.take p.index_bytes = Rfc.toByte ts.length p.index_bytes ∧ r.stdout.drop p.sig_bytes = t.msg ∧
          r'.stdout.take p.index_bytes = Rfc.toByte ts.length p.index_bytes ∧ r'.stdout.drop p.sig_bytes = t'.msg ∧
          ∀ junk', Fresh junk' → uiOpen P f junk' (some file) (some r.stdout) = some 0 ∧
            uiOpen P f junk' (some file) (some r'.stdout) = some 0 := by
  obtain ⟨file, hf, hfl, hist⟩ := C51_simple_tools (P := P) name hn hp junk seed hj hs
  refine ⟨file, hf, ?_⟩
  intro ts t t' hx hlen
  have run : ∀ x : ToolRun, x = t ∨ x = t' → ∃ rs r, toolRuns P f (some file) ts = some rs ∧
      uiSign P f x.junk (keyAfter (some file) rs) (some x.msg) = some r ∧ GoodRun P f p file ts.length x r := by
    intro x hxt
    obtain ⟨l, h1, h2, h3⟩ := hist (ts ++ [x]) (by
      intro y hy
      refine hx y ?_
      simp only [List.mem_append, List.mem_cons, List.not_mem_nil, or_false] at hy ⊢
      rcases hy with h | h
      · exact Or.inl h
      · rcases hxt with h' | h' <;> simp [h, h']) (by simpa using hlen)
    obtain ⟨rs, r, e1, e2, rfl⟩ := toolRuns_append _ _ _ _ h1
    have hrl : rs.length = ts.length := by simpa using h2
    exact ⟨rs, r, e1, e2, h3 ts.length x r (by simp) (by rw [← hrl]; simp)⟩
  obtain ⟨rs, r0, a1, a2, a3⟩ := run t (Or.inl rfl)
  obtain ⟨rs', r1, b1, b2, b3⟩ := run t' (Or.inr rfl)
  rw [a1] at b1
  cases b1
  cases hkey : keyAfter (some file) rs with
  | none =>
    rw [hkey, uiSign] at a2
    have e := Option.some.inj a2
    have := a3.exit
    rw [← e] at this
    cases this
  | some key =>
    rw [hkey] at a2 b2
    have h := (C77_key_not_stored (P := P) (f := f) t.junk junkM hjM key t.msg r0 0).1 a2
    rw [a3.size] at h
    refine ⟨rs, key, _, r1, a1, hkey, h, a3.exit, rfl, b2, b3.exit, a3.index, a3.msg, b3.index, b3.msg, ?_⟩
    intro junk' hj'
    obtain ⟨_, _, ho, _⟩ := Family.facts (P := P) hp
    have hoid : file.take 4 = Rfc.toByte oid 4 := by
      obtain ⟨pk, sk, e1, e2, _, e4⟩ := C45_known_names (P := P) name hn hp junk seed hj hs
      rw [hf] at e4
      have e5 : file = pk ++ sk := by have := Option.some.inj e4; exact congrArg KeypairRun.stdout this
      obtain ⟨g, hskb, ho, H, hH⟩ := Family.facts (P := P) hp
      obtain ⟨k, hk, _, _, hkp⟩ := keypair_key hp hH (junk (4 + p.pk_bytes)) (junk (4 + p.sk_bytes)) (hj _) (hj _) seed hs
      rw [hkp] at e1
      cases e1
      rw [e5, Key.pk, List.append_assoc, List.append_assoc, List.take_left' (toByte_length _ _)]
    have acc : ∀ x r, GoodRun P f p file ts.length x r → uiOpen P f junk' (some file) (some r.stdout) = some 0 := by
      intro x r hg
      obtain ⟨key', _, k2, k3, _, k5⟩ := hg.key
      rw [uiOpen_take junk' oid hp file key' r.stdout (by omega) (by omega) k3.symm hoid ho]
      exact (k5 junk' hj').1
    exact ⟨acc t r0 a3, acc t' r1 b3⟩

/-- **C77 fails (fast build).** -/
theorem C77_fails_fast (name : String) (hn : f.strToOid name = some oid) (hp : f.parseFast oid = some p)
    (junk seed junkM : Nat → Bytes) (hj : Fresh junk) (hjM : Fresh junkM) (hs : (seed p.n).length = 3 * p.n) :
    ∃ file, uiKeypairFast P f junk seed [name] = some { exit := 0, stdout := file } ∧
      ∀ (ts : List ToolRun) (t t' : ToolRun), (∀ x ∈ ts ++ [t, t'], Fresh x.junk ∧ p.sig_bytes + x.msg.length < 2 ^ 64) →
        ts.length + 1 ≤ 2 ^ p.full_height - 1 →
        (p.d ≤ p.tree_height / 2 + 2 ∨ ts.length + 1 < 2 ^ (p.tree_height * (p.tree_height / 2 + 2))) →
        ∃ rs key r r', toolRunsFast P f (some file) ts = some rs ∧ keyAfter (some file) rs = some key ∧
          uiSignEnv (uiSignReadFast f) (fun sk sm l m => (uiSignCallFast P f sk sm l m).map (·.toSignOut)) t.junk junkM t.smlen0
            (keyNotStored key t.msg (p.sig_bytes + t.msg.length)) = some r ∧ r.exit = 0 ∧ r.keyFile = some key ∧
          uiSignFast P f t'.junk t'.smlen0 r.keyFile (some t'.msg) = some r' ∧ r'.exit = 0 ∧
          r.stdout.take p.index_bytes = Rfc.toByte ts.length p.index_bytes ∧ r.stdout.drop p.sig_bytes = t.msg ∧
          r'.stdout.take p.index_bytes = Rfc.toByte ts.length p.index_bytes ∧ r'.stdout.drop p.sig_bytes = t'.msg ∧
          (∃ key', key'.take (4 + p.pk_bytes) = file.take (4 + p.pk_bytes) ∧
            ∀ junk', Fresh junk' → uiOpenFast P f junk' (some key') (some r.stdout) = some 0) ∧
          (∃ key', key'.take (4 + p.pk_bytes) = file.take (4 + p.pk_bytes) ∧
            ∀ junk', Fresh junk' → uiOpenFast P f junk' (some key') (some r'.stdout) = some 0) := by
  obtain ⟨file, hf, hfl, hist⟩ := C51_fast_tools (P := P) name hn hp junk seed hj hs
  refine ⟨file, hf, ?_⟩
  intro ts t t' hx hlen hlim
  have run : ∀ x : ToolRun, x = t ∨ x = t' → ∃ rs r, toolRunsFast P f (some file) ts = some rs ∧
      uiSignFast P f x.junk x.smlen0 (keyAfter (some file) rs) (some x.msg) = some r ∧ GoodRun P f p file ts.length x r := by
    intro x hxt
    obtain ⟨l, h1, h2, h3⟩ := hist (ts ++ [x]) (by
      intro y hy
      refine hx y ?_
      simp only [List.mem_append, List.mem_cons, List.not_mem_nil, or_false] at hy ⊢
      rcases hy with h | h
      · exact Or.inl h
      · rcases hxt with h' | h' <;> simp [h, h']) (by simpa using hlen) (by simpa using hlim)
    obtain ⟨rs, r, e1, e2, rfl⟩ := toolRunsFast_append _ _ _ _ h1
    have hrl : rs.length = ts.length := by simpa using h2
    exact ⟨rs, r, e1, e2, h3 ts.length x r (by simp) (by rw [← hrl]; simp)⟩
  obtain ⟨rs, r0, a1, a2, a3⟩ := run t (Or.inl rfl)
  obtain ⟨rs', r1, b1, b2, b3⟩ := run t' (Or.inr rfl)
  rw [a1] at b1
  cases b1
  cases hkey : keyAfter (some file) rs with
  | none =>
    rw [hkey, uiSignFast] at a2
    have e := Option.some.inj a2
    have := a3.exit
    rw [← e] at this
    cases this
  | some key =>
    rw [hkey] at a2 b2
    have h := (C77_key_not_stored (P := P) (f := f) t.junk junkM hjM key t.msg r0 t.smlen0).2 a2
    rw [a3.size] at h
    obtain ⟨ka, _, _, a4, _, a5⟩ := a3.key
    obtain ⟨kb, _, _, b4, _, b5⟩ := b3.key
    exact ⟨rs, key, _, r1, a1, hkey, h, a3.exit, rfl, b2, b3.exit, a3.index, a3.msg, b3.index, b3.msg,
      ⟨ka, a4, fun j hj => (a5 j hj).2⟩, ⟨kb, b4, fun j hj => (b5 j hj).2⟩⟩

/-! ### Other failures that are not reported -/

/-- **C77 fails: incomplete output.**  The exit status is 0 and the index is used up whatever part of the signed message reaches stdout. -/
theorem C77_fails_output {oidp : Nat} (hpp : f.parse oidp = some pp) (hp : f.parse oid = some p) (junk junkM : Nat → Bytes)
    (hj : Fresh junk) (hjM : Fresh junkM) (pkb tail m : Bytes) (hpk : pkb.length = pp.pk_bytes) (k : Key) (hk : k.Valid p) (idx : Nat)
    (hidx : idx < 2 ^ p.full_height - 1) (n : Nat) (hn : n ≤ p.sig_bytes + m.length) :
    ∃ sm, sm.length = p.sig_bytes + m.length ∧
      uiSign P f junk (some (Rfc.toByte oidp 4 ++ pkb ++ k.sk p oid idx ++ tail)) (some m) =
        some { exit := 0, keyFile := some (Rfc.toByte oidp 4 ++ pkb ++ k.sk p oid (idx + 1) ++ tail), stdout := sm } ∧
      uiSignEnv (uiSignRead f) (f.sign P) junk junkM (junk 0).length
        { keyNotStored (Rfc.toByte oidp 4 ++ pkb ++ k.sk p oid idx ++ tail) m n with keyWritten := p.sk_bytes } =
        some { exit := 0, keyFile := some (Rfc.toByte oidp 4 ++ pkb ++ k.sk p oid (idx + 1) ++ tail), stdout := sm.take n } := by
  obtain ⟨g, hskb, ho, H, hH⟩ := Family.facts (P := P) hp
  have hskl := Key.sk_length hk hskb oid idx
  obtain ⟨o, e1, e2, e3, e4, e5, e6⟩ := C41_updates_in_place (P := P) hpp hp junk hj pkb (k.sk p oid idx) tail m hpk
    hskl (Key.sk_take k p oid idx)
  have hc := C23_sign_is_rfc hp hH k hk idx hidx (junk (p.sig_bytes + m.length)) 0 m (hj _)
  rw [e1] at hc
  have hsk : o.sk = k.sk p oid (idx + 1) := by rw [Option.some.inj hc]
  rw [hsk] at e2
  refine ⟨o.sm, e5, e2, ?_⟩
  have hread := uiSignRead_eq hpp hp pkb (k.sk p oid idx) tail hpk hskl (Key.sk_take k p oid idx)
  have h1 := (C77_no_failure (P := P) (f := f) junk junkM hjM
    { keyNotStored (Rfc.toByte oidp 4 ++ pkb ++ k.sk p oid idx ++ tail) m (p.sig_bytes + m.length) with keyWritten := p.sk_bytes } _
    p.sk_bytes 0 ⟨rfl, rfl, rfl, rfl, fun m' hm => by cases hm; exact le_refl _, le_refl _, e5.le⟩).1
    (fun key off p' x hkey hr => by cases hkey; rw [hread] at hr; cases hr; exact le_refl _) e2
  obtain ⟨r', a1, a2, a3, a4, _⟩ := C77_exit_status_ignores_writes _ _ _ _ _ _ _ h1 p.sk_bytes n (le_refl _)
  have a3 := a3 hn
  have a4 := a4 rfl
  exact a1.trans (congrArg some (run_ext a2 a4 a3))

/-- **C77 fails: a message that cannot be read.**  If the size of the message file can be found out but its content cannot be read, the tool signs
what was in its memory, and exits with status 0. -/
theorem C77_fails_message {oidp : Nat} (hpp : f.parse oidp = some pp) (hp : f.parse oid = some p) (junk junkM : Nat → Bytes)
    (hj : Fresh junk) (hjM : Fresh junkM) (pkb tail m : Bytes) (hpk : pkb.length = pp.pk_bytes) (sk : Bytes)
    (hsk : sk.length = 4 + p.sk_bytes) (hoid : sk.take 4 = Rfc.toByte oid 4) :
    uiSignEnv (uiSignRead f) (f.sign P) junk junkM (junk 0).length
        { keyNotStored (Rfc.toByte oidp 4 ++ pkb ++ sk ++ tail) m (p.sig_bytes + m.length) with keyWritten := p.sk_bytes, gotM := 0 } =
      uiSign P f junk (some (Rfc.toByte oidp 4 ++ pkb ++ sk ++ tail)) (some (junkM m.length)) := by
  have hread := uiSignRead_eq hpp hp pkb sk tail hpk hsk hoid
  obtain ⟨o, e1, e2, e3, e4, e5, e6⟩ := C41_updates_in_place (P := P) hpp hp junk hj pkb sk tail (junkM m.length) hpk hsk hoid
  rw [hjM] at e5
  have h1 := (C77_no_failure (P := P) (f := f) junk junkM hjM
    { keyNotStored (Rfc.toByte oidp 4 ++ pkb ++ sk ++ tail) (junkM m.length) (p.sig_bytes + m.length) with keyWritten := p.sk_bytes } _
    p.sk_bytes 0 ⟨rfl, rfl, rfl, rfl, fun m' hm => by cases hm; exact le_refl _, le_refl _, e5.le⟩).1
    (fun key off p' x hkey hr => by cases hkey; rw [hread] at hr; cases hr; exact le_refl _) e2
  rw [e2, ← h1, run_eq hjM rfl rfl rfl rfl rfl rfl hread, run_eq hjM rfl rfl rfl rfl rfl rfl hread]
  have hb : ∀ g, List.take g (junkM m.length) ++ (junkM (junkM m.length).length).drop (min g (junkM m.length).length) =
      if (junkM m.length).length ≤ g then junkM m.length else List.take g (junkM m.length) ++
        (junkM (junkM m.length).length).drop (min g (junkM m.length).length) := by
    intro g
    split
    · next h => rw [buf_all hjM h]
    · rfl
  simp only [keyNotStored]
  rw [hb, if_pos (le_refl _), hjM]
  simp only [List.take_zero, List.nil_append, Nat.zero_min, List.drop_zero]

/-- **C77 fails: an incomplete key pair.** -/
theorem C77_fails_keypair (name : String) (hn : f.strToOid name = some oid) (junk seed : Nat → Bytes) (hj : Fresh junk) (n : Nat) :
    (∀ p, f.parse oid = some p → (seed p.n).length = 3 * p.n → ∃ file, file.length = 4 + p.pk_bytes + (4 + p.sk_bytes) ∧
      uiKeypair P f junk seed [name] = some { exit := 0, stdout := file } ∧
      uiKeypairEnv f f.parse (f.keypair P) junk seed [name] n = some { exit := 0, stdout := file.take n }) ∧
    (∀ p, f.parseFast oid = some p → (seed p.n).length = 3 * p.n → ∃ file, file.length = 4 + p.pk_bytes + (4 + p.sk_bytes) ∧
      uiKeypairFast P f junk seed [name] = some { exit := 0, stdout := file } ∧
      uiKeypairEnv f f.parseFast (f.keypairFast P) junk seed [name] n = some { exit := 0, stdout := file.take n }) := by
  constructor
  · intro p hp hs
    obtain ⟨file, h1, h2, _⟩ := C51_simple_tools (P := P) name hn hp junk seed hj hs
    refine ⟨file, h2, h1, ?_⟩
    rw [uiKeypair] at h1
    rw [uiKeypairEnv]
    simp only [hn, Option.getD_some, hp] at h1 ⊢
    obtain ⟨r, e1, e2⟩ := Option.bind_eq_some_iff.mp h1
    rw [e1]
    cases e2
    rfl
  · intro p hp hs
    obtain ⟨file, h1, h2, _⟩ := C51_fast_tools (P := P) name hn hp junk seed hj hs
    refine ⟨file, h2, h1, ?_⟩
    rw [uiKeypairFast, uiParseFast_eq, uiKeypairCallFast_eq] at h1
    rw [uiKeypairEnv]
    simp only [hn, Option.getD_some, hp] at h1 ⊢
    obtain ⟨r, e1, e2⟩ := Option.bind_eq_some_iff.mp h1
    rw [e1]
    cases e2
    rfl

/-! ### The verification tool -/

/-- **C77 (verification).**  A wrong number of arguments or a file that cannot be opened is reported, and a signed message that is read
completely gets the verdict of C44. -/
theorem C77_open_partial (junk junkSm : Nat → Bytes) (e : OpenEnv) :
    (e.args ≠ 2 ∨ e.keyFile = none ∨ e.smFile = none → uiOpenEnv P f.parse junk junkSm (junk 0).length e = some (-1)) ∧
    (Fresh junkSm → e.args = 2 → e.seekable = true → e.mallocM = true → e.mallocSm = true →
      (∀ sm, e.smFile = some sm → sm.length ≤ e.gotSm) →
      uiOpenEnv P f.parse junk junkSm (junk 0).length e = uiOpen P f junk e.keyFile e.smFile) := by
  have hso : f.signOpen P = apiOpen P f.parse := by cases f <;> rfl
  constructor
  · intro h
    rw [uiOpenEnv]
    split
    · rfl
    · next h2 =>
      cases hk : e.keyFile with
      | none => rfl
      | some key =>
        cases hm : e.smFile with
        | none => rfl
        | some sm =>
          rw [hk, hm] at h
          rcases h with h | h | h
          · exact absurd h h2
          · cases h
          · cases h
  · intro hj h2 hs hM hS hg
    rw [uiOpenEnv, if_neg (by simp [h2]), uiOpen.eq_def]
    cases hk : e.keyFile with
    | none => rfl
    | some key =>
      cases hm : e.smFile with
      | none => rfl
      | some sm =>
        simp only [hs, hM, hS, hso]
        rw [show List.take e.gotSm sm ++ List.drop (min e.gotSm sm.length) (junkSm sm.length) = sm from buf_all hj (hg sm hm)]
        rfl

/-- **C77 fails (verification).**  A signature file that cannot be read gets exit status 0 if the memory of the process happens to hold a
valid signed message of the same length. -/
theorem C77_fails_open (junk : Nat → Bytes) (key sm file : Bytes) (hl : file.length = sm.length)
    (h : uiOpen P f junk (some key) (some sm) = some 0) :
    ∃ junkSm, Fresh junkSm ∧ uiOpenEnv P f.parse junk junkSm (junk 0).length
      { args := 2, keyFile := some key, smFile := some file, seekable := true, mallocSm := true, mallocM := true, gotSm := 0 } = some 0 := by
  have hso : f.signOpen P = apiOpen P f.parse := by cases f <;> rfl
  refine ⟨fun k => if k = sm.length then sm else List.replicate k 0, fun k => ?_, ?_⟩
  · dsimp only
    split
    · next e => exact e.symm
    · simp
  · rw [uiOpen, hso] at h
    rw [uiOpenEnv, if_neg (by simp)]
    simp only [hl, if_true, List.take_zero, List.nil_append, Nat.zero_min, List.drop_zero]
    exact h

/-- **C77 fails: pipes.**  A message that does not come from a seekable file makes the sign tool run into undefined behaviour, although
nothing else fails; so does a signed message for the verification tool. -/
theorem C77_fails_pipe {oidp : Nat} (hpp : f.parse oidp = some pp) (hp : f.parse oid = some p) (junk junkM : Nat → Bytes)
    (pkb tail m : Bytes) (hpk : pkb.length = pp.pk_bytes) (sk : Bytes)
    (hsk : sk.length = 4 + p.sk_bytes) (hoid : sk.take 4 = Rfc.toByte oid 4) (n : Nat) :
    uiSignEnv (uiSignRead f) (f.sign P) junk junkM (junk 0).length
        { keyNotStored (Rfc.toByte oidp 4 ++ pkb ++ sk ++ tail) m n with keyWritten := p.sk_bytes, seekable := false } = none := by
  have hread := uiSignRead_eq hpp hp pkb sk tail hpk hsk hoid
  rw [uiSignEnv, if_neg (by simp [keyNotStored])]
  simp only [keyNotStored, hread, Option.bind_eq_bind, Option.bind_some]
  rw [if_pos]
  right
  exact ⟨by rw [ftellSize]; simp, by simp⟩

/-! ### The hypotheses can be met -/

-- XMSS-SHA2_10_256: a key file, one normal run, a run whose key is not stored, and one more run: two messages with index 1.
example (P : Prims) : ∃ file rs key r r', uiKeypair P .xmss (fun k => List.replicate k 7) (fun n => List.replicate (3 * n) 1)
      ["XMSS-SHA2_10_256"] = some { exit := 0, stdout := file } ∧
    toolRuns P .xmss (some file) [⟨fun k => List.replicate k 3, 0, [9]⟩] = some rs ∧ keyAfter (some file) rs = some key ∧
    uiSignEnv (uiSignRead .xmss) (Family.xmss.sign P) (fun k => List.replicate k 3) (fun k => List.replicate k 4) 0
      (keyNotStored key [1, 2] 2502) = some r ∧ r.exit = 0 ∧
    uiSign P .xmss (fun k => List.replicate k 3) r.keyFile (some [3]) = some r' ∧
    r.stdout.take 4 = [0, 0, 0, 1] ∧ r'.stdout.take 4 = [0, 0, 0, 1] := by
  obtain ⟨p, hp, h1, h2, h3, h4⟩ : ∃ p, Family.xmss.parse 1 = some p ∧ p.full_height = 10 ∧ p.sig_bytes = 2500 ∧ p.index_bytes = 4 ∧
      p.n = 32 := ⟨_, rfl, by decide +kernel, by decide +kernel, by decide +kernel, by decide +kernel⟩
  obtain ⟨file, e1, h⟩ := C77_fails (P := P) (f := .xmss) "XMSS-SHA2_10_256" rfl hp (fun k => List.replicate k 7)
    (fun n => List.replicate (3 * n) 1) (fun k => List.replicate k 4) (fun k => by simp) (fun k => by simp) (by simp)
  obtain ⟨rs, key, r, r', a1, a2, a3, a4, _, a6, _, a8, _, a10, _⟩ := h [⟨fun k => List.replicate k 3, 0, [9]⟩]
    ⟨fun k => List.replicate k 3, 0, [1, 2]⟩ ⟨fun k => List.replicate k 3, 0, [3]⟩ (by
      intro x hx
      simp only [List.cons_append, List.nil_append, List.mem_cons, List.not_mem_nil, or_false] at hx
      rcases hx with rfl | rfl | rfl <;> exact ⟨fun k => by simp, by simp only [h2, List.length_cons, List.length_nil]; omega⟩)
    (by rw [h1]; simp)
  rw [h2] at a3
  rw [h3] at a8 a10
  exact ⟨file, rs, key, r, r', e1, a1, a2, a3, a4, a6, a8, a10⟩

end Xmss
