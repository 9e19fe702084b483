import Verif.Props.CrashFast
/-
C57: is the key file still usable after crashes?
-/
namespace Xmss

variable {P : Prims} {f : Family} {oid : Nat} {p : Params} {H : Bytes → Bytes}

/-- The key file after the runs `rs` that began with `file`. -/
def endFile (file : Bytes) : List CrashRecord → Bytes
  | [] => file
  | r :: rs => endFile r.file rs

theorem crash_end {oidp : Nat} {pp : Params} (hpp : f.parse oidp = some pp) (hp : f.parse oid = some p)
    (hH : coreHash P p.func p.n = some H) (h40 : 2 ^ p.full_height < 256 ^ p.index_bytes)
    {junk : Nat → Bytes} (hj : Fresh junk) {pkb T : Bytes} (hpk : pkb.length = pp.pk_bytes) (k : Key)
    (mayFlush : Nat → Prop) (l0 : Nat) : ∀ (rs : List CrashRecord) (k' : Key) (x : Nat), k'.Valid p →
    x < 256 ^ p.index_bytes → (x < 2 ^ p.full_height - 1 → k' = k) →
    CrashRuns (CrashRunSlow P f junk l0 mayFlush) (Rfc.toByte oidp 4 ++ pkb ++ k'.sk p oid x ++ T) rs →
    ∃ k'' y, k''.Valid p ∧ x ≤ y ∧ y < 256 ^ p.index_bytes ∧ (y < 2 ^ p.full_height - 1 → k'' = k) ∧
      endFile (Rfc.toByte oidp 4 ++ pkb ++ k'.sk p oid x ++ T) rs = Rfc.toByte oidp 4 ++ pkb ++ k''.sk p oid y ++ T := by
  intro rs
  induction rs with
  | nil => intro k' x hk' hx hkk _; exact ⟨k', x, hk', Nat.le_refl _, hx, hkk, rfl⟩
  | cons r rs ih =>
    intro k' x hk' hx hkk hr
    obtain ⟨h1, h2⟩ := hr
    obtain ⟨_, k'', hv, j, hf, hsame, _, _⟩ := crash_step hpp hp hH hj hpk hk' hx h1
    obtain ⟨g1, _, g3⟩ := nextIdx_ge h40 hx
    have hge : x ≤ tornIndex p.index_bytes x (nextIdx p x) (min j p.index_bytes) := torn_ge g1
    rw [hf] at h2
    obtain ⟨k3, y, a1, a2, a3, a4, a5⟩ := ih k'' _ hv (torn_lt (Nat.min_le_right _ _) g3)
      (fun h => by rw [hsame (by omega), hkk (by omega)]) h2
    exact ⟨k3, y, a1, by omega, a3, a4, by rw [endFile, hf]; exact a5⟩

/-- **C57 (simple implementation).**  A key file written by the key generation tool, after any number of runs of the signing
tool, each killed at an arbitrary moment, under whatever buffering: its length is the old one, only the secret key has changed,
and there is an index `x`, not smaller than the original one, such that, unless the key is used up (`x` is the last index or
larger), the next run of the signing tool that is not killed exits with 0, advances the key file to `x + 1` and outputs a
signed message which the verification tool accepts with that file (and with the original one). -/
theorem C57_usable_after_crashes (hp : f.parse oid = some p)
    (hH : coreHash P p.func p.n = some H) (h40 : 2 ^ p.full_height < 256 ^ p.index_bytes)
    {junk : Nat → Bytes} (hj : Fresh junk) (k : Key) (hk : k.Valid p) (hh : k.Honest (suiteOf p H)) (T : Bytes)
    (idx : Nat) (hidx : idx < 256 ^ p.index_bytes) (mayFlush : Nat → Prop) (l0 : Nat) (rs : List CrashRecord)
    (hr : CrashRuns (CrashRunSlow P f junk l0 mayFlush) (k.pk oid ++ k.sk p oid idx ++ T) rs) :
    ∃ x file, idx ≤ x ∧ x < 256 ^ p.index_bytes ∧ file = endFile (k.pk oid ++ k.sk p oid idx ++ T) rs ∧
      file.length = (k.pk oid ++ k.sk p oid idx ++ T).length ∧
      file.take (4 + p.pk_bytes) = k.pk oid ∧ file.drop (4 + p.pk_bytes + (4 + p.sk_bytes)) = T ∧
      (x < 2 ^ p.full_height - 1 →
        file = k.pk oid ++ k.sk p oid x ++ T ∧
        ∀ (junk' : Nat → Bytes) (m : Bytes), Fresh junk' → p.sig_bytes + m.length < 2 ^ 64 →
          ∃ out, uiSign P f junk' (some file) (some m) =
              some { exit := 0, keyFile := some (k.pk oid ++ k.sk p oid (x + 1) ++ T), stdout := out } ∧
            out = (suiteOf p H).sign k.skSeed k.skPrf k.root k.pubSeed x m ++ m ∧
            uiOpen P f junk' (some file) (some out) = some 0 ∧
            uiOpen P f junk' (some (k.pk oid ++ k.sk p oid idx ++ T)) (some out) = some 0) := by
  obtain ⟨g, hskb, ho, _⟩ := Family.facts (P := P) hp
  have hpk : (k.root ++ k.pubSeed).length = p.pk_bytes := by simp [hk.root, hk.pubSeed, g.pk_eq]; omega
  have hpkl : (k.pk oid).length = 4 + p.pk_bytes := by
    rw [show k.pk oid = Rfc.toByte oid 4 ++ (k.root ++ k.pubSeed) from rfl, List.length_append, toByte_length, hpk]
  obtain ⟨k'', x, hv, hx, hxb, hsame, he⟩ := crash_end hp hp hH h40 hj hpk k mayFlush l0 rs k idx hk hidx (fun _ => rfl) hr
  rw [show Rfc.toByte oid 4 ++ (k.root ++ k.pubSeed) = k.pk oid from rfl] at he
  refine ⟨x, _, hx, hxb, rfl, ?_, ?_, ?_, ?_⟩
  · rw [he]; simp only [List.length_append, Key.sk_length hv hskb, Key.sk_length hk hskb]
  · rw [he, List.append_assoc, List.take_left' hpkl]
  · rw [he, List.drop_left' (by rw [List.length_append, hpkl, Key.sk_length hv hskb])]
  intro hlt
  rw [hsame hlt] at he
  refine ⟨he, fun junk' m hj' h64 => ?_⟩
  obtain ⟨o, e1, e2, _⟩ := C41_updates_in_place (P := P) hp hp junk' hj' (k.root ++ k.pubSeed) (k.sk p oid x) T m hpk
    (Key.sk_length hk hskb oid x) (Key.sk_take k p oid x)
  have hc := sign_call hp hH k hk x hxb (junk' (p.sig_bytes + m.length)) 0 m (by rw [hj'])
  rw [e1] at hc
  have hc := Option.some.inj hc
  have hsk : o.sk = k.sk p oid (x + 1) := by rw [hc]; simp only [nextKey, nextIdx, if_pos hlt]
  have hsm : o.sm = (suiteOf p H).sign k.skSeed k.skPrf k.root k.pubSeed x m ++ m := by
    rw [hc]
    simp only [if_pos hlt]
    rw [List.drop_of_length_le (by rw [hj']), List.append_nil]
  rw [show Rfc.toByte oid 4 ++ (k.root ++ k.pubSeed) = k.pk oid from rfl, hsk, hsm] at e2
  refine ⟨_, by rw [he]; exact e2, rfl, ?_, ?_⟩
  · rw [he, List.append_assoc]
    exact uiOpen_honest hp hH junk' hj' k hk.root hk.pubSeed hh _ m (by omega) h64
  · rw [List.append_assoc]
    exact uiOpen_honest hp hH junk' hj' k hk.root hk.pubSeed hh _ m (by omega) h64

-- Non-vacuity: XMSS-SHA2_10_256, a run on index 255 killed after three of the four index bytes (stored index 511), then a
-- run on index 511 killed after the whole index has been written (stored index 512).
example (P : Prims) (k : Key) (p : Params) (hp : Family.xmss.parse 1 = some p) (hk : k.Valid p) :
    CrashRuns (CrashRunSlow P .xmss (fun n => List.replicate n 0) 0 (fun n => 4096 < n)) (k.pk 1 ++ k.sk p 1 255 ++ [])
      [⟨[1], [], k.pk 1 ++ k.sk p 1 511 ++ []⟩, ⟨[2], [], k.pk 1 ++ k.sk p 1 512 ++ []⟩] := by
  have hh : p.full_height = 10 ∧ p.index_bytes = 4 ∧ p.pk_bytes = 2 * p.n := by cases hp; decide +kernel
  obtain ⟨h1, h2, h3⟩ := hh
  have hpk : (k.root ++ k.pubSeed).length = p.pk_bytes := by simp [hk.root, hk.pubSeed, h3]; omega
  have a := C55_indices_can_be_lost (P := P) (T := []) (m := [1]) hp hp (junk := fun n => List.replicate n 0) (fun n => by simp) hpk hk
    (idx := 255) (by rw [h1]; decide) (fun n => 4096 < n) 0 (i := 1) (by omega) (by decide)
  have b := C55_indices_can_be_lost (P := P) (T := []) (m := [2]) hp hp (junk := fun n => List.replicate n 0) (fun n => by simp) hpk hk
    (idx := 511) (by rw [h1]; decide) (fun n => 4096 < n) 0 (i := 0) (by omega) (by decide)
  exact ⟨a, b, trivial⟩

end Xmss
