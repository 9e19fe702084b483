import Verif.Props.FastDamaged
import Verif.Props.UiFast
/-
C55 for the signing tool linked with the fast implementation: crashes in the middle of the key file update.
-/
namespace Xmss

variable {P : Prims} {f : Family} {oid : Nat} {p : Params} {H : Bytes → Bytes}

/-- What a run on a key with index `x` can output (`o` is a prefix of it): from the last index on, bytes which do not depend
on the key. -/
def fastOutput (p : Params) (H : Bytes → Bytes) (junk : Nat → Bytes) (k : Key) (x : Nat) (m o : Bytes) : Prop :=
  if x < 2 ^ p.full_height - 1 then
    ∃ rest, (sigHead p H k x m ++ rest).length = p.sig_bytes ∧ o <+: sigHead p H k x m ++ rest ++ m
  else if x = 2 ^ p.full_height - 1 then o <+: fastLastSig p H m ++ m
  else o <+: junk (p.sig_bytes + m.length)

/-- One call on an arbitrary key, in the form needed here. -/
theorem damaged_call (hp : f.parseFast oid = some p) (hH : coreHash P p.func p.n = some H) {k : Key} (hk : k.Valid p)
    {x : Nat} (hx : x < 256 ^ p.index_bytes) {ext : Bytes} (hext : p.index_bytes + 4 * p.n + ext.length = p.sk_bytes)
    {sm m : Bytes} (hsm : sm.length = p.sig_bytes + m.length) {junk : Nat → Bytes} (hj : junk (p.sig_bytes + m.length) = sm) {l0 : Nat}
    {o : FastOut} (h : f.signFast P (k.damaged p oid x ext) sm l0 m = some o) {out : Bytes} (hout : rd o.sm 0 o.smlen = some out) :
    out.length ≤ p.sig_bytes + m.length ∧ (∀ z, z <+: out → fastOutput p H junk k x m z) ∧
      ∃ ext', p.index_bytes + 4 * p.n + ext'.length = p.sk_bytes ∧
        o.sk = (nextKey p x k).damaged p oid (nextIdx p x) ext' := by
  obtain ⟨g, hskb, ho, _, _, _⟩ := parseFast_good hp
  obtain ⟨H', hH', hHl⟩ := Family.hashFast (P := P) hp
  rw [hH] at hH'
  obtain rfl := Option.some.inj hH'
  have hpos : 0 < 2 ^ p.full_height := Nat.two_pow_pos _
  have post := C56_damaged_state hp hH k hk x hx ext hext { msg := m, sm := sm, smlen0 := l0 } (by simp only; omega) o h
  have hrd : ∀ b : Bytes, b.length = p.sig_bytes + m.length → rd (b ++ sm.drop (p.sig_bytes + m.length)) 0 (p.sig_bytes + m.length) =
      some b := by
    intro b hb
    have := rd_append [] b (sm.drop (p.sig_bytes + m.length)) (off := 0) (len := p.sig_bytes + m.length) rfl hb.symm
    simpa using this
  rcases Nat.lt_trichotomy (x + 1) (2 ^ p.full_height) with hl | hl | hl
  · obtain ⟨_, a2, ⟨rest, a3, a4⟩, ext', a5, a6⟩ := post.ok hl
    simp only at a2 a4
    rw [a4, a2, hrd _ (by rw [List.length_append, a3])] at hout
    obtain rfl := Option.some.inj hout
    have hx' : x < 2 ^ p.full_height - 1 := by omega
    refine ⟨by rw [List.length_append, a3], fun z hz => ?_, ext', a5, ?_⟩
    · rw [fastOutput, if_pos hx']
      exact ⟨rest, a3, hz⟩
    · rw [a6, nextKey, nextIdx, if_pos hx', if_pos hx']
  · obtain ⟨_, a2, a3, ext', a5, a6⟩ := post.last hl
    simp only at a2 a3
    have hlast : (fastLastSig p H m).length = p.sig_bytes := by
      have hR : ((suiteOf p H).PRF (Key.zero p).skPrf (Rfc.toByte (2 ^ p.full_height - 1) 32)).length = p.n := hHl _
      have hsg := g.sig_eq'
      have hB : (p.wots_len + p.tree_height) * p.n = p.wots_sig_bytes + p.tree_height * p.n := by rw [g.sig_wots]; ring
      have hd : p.d * ((p.wots_len + p.tree_height) * p.n) = (p.wots_len + p.tree_height) * p.n +
          (p.d - 1) * ((p.wots_len + p.tree_height) * p.n) := by
        obtain ⟨k, hk⟩ : ∃ k, p.d = k + 1 := ⟨p.d - 1, by have := g.d_pos; omega⟩
        rw [hk, Nat.add_sub_cancel]; ring
      simp only [fastLastSig, List.length_append, toByte_length, hR, wotsSig_flat_length g hHl, List.length_replicate]
      rw [← hB]
      rw [hd] at hsg
      have hB' : (p.wots_len + p.tree_height) * p.n = p.wots_len * p.n + p.tree_height * p.n := by ring
      omega
    rw [a3, a2, hrd _ (by rw [List.length_append, hlast])] at hout
    obtain rfl := Option.some.inj hout
    have hx' : ¬ x < 2 ^ p.full_height - 1 := by omega
    have hx'' : x = 2 ^ p.full_height - 1 := by omega
    refine ⟨by rw [List.length_append, hlast], fun z hz => ?_, ext', a5, ?_⟩
    · rw [fastOutput, if_neg hx', if_pos hx'']
      exact hz
    · rw [a6, nextKey, nextIdx, if_neg hx', if_neg hx', if_pos hx'', hl, Key.damaged, Key.damaged, toByte_mod]
  · obtain ⟨_, a2, a3, a4⟩ := post.over (by omega)
    simp only at a2 a3
    rw [a2] at hout
    obtain ⟨hle, rfl⟩ : o.smlen ≤ sm.length ∧ sm.take o.smlen = out := by
      rw [rd, Nat.zero_add] at hout
      split at hout
      · rename_i hle
        exact ⟨hle, by simpa using hout⟩
      · cases hout
    have hx' : ¬ x < 2 ^ p.full_height - 1 := by omega
    have hx'' : ¬ x = 2 ^ p.full_height - 1 := by omega
    refine ⟨by rw [List.length_take]; omega, fun z hz => ?_, List.replicate (p.sk_bytes - p.index_bytes - 4 * p.n) 0,
      by rw [List.length_replicate]; omega, ?_⟩
    · rw [fastOutput, if_neg hx', if_neg hx'', hj]
      exact hz.trans (List.take_prefix _ _)
    · rw [a4, deleted_eq (by omega), nextKey, nextIdx, if_neg hx', if_neg hx', if_neg hx'']

/-- The first `j` bytes of the new secret key over the old one. -/
theorem torn_damaged {k k' : Key} (hk : k.Valid p) (hk' : k'.Valid p) (x y j : Nat) {ext ext' : Bytes} :
    ∃ k'' : Key, k''.Valid p ∧ (k' = k → k'' = k) ∧
      ((k'.damaged p oid y ext').drop 4).take j ++ ((k.damaged p oid x ext).drop 4).drop j =
        Rfc.toByte (tornIndex p.index_bytes x y (min j p.index_bytes)) p.index_bytes ++ k''.mat ++
          (ext'.take (j - (p.index_bytes + 4 * p.n)) ++ ext.drop (j - (p.index_bytes + 4 * p.n))) := by
  obtain ⟨k'', h1, h2, h3, _⟩ := torn_sk (oid := oid) hk hk' x y j
  refine ⟨k'', h1, h2, ?_⟩
  have d : ∀ (k : Key) (x : Nat) (e : Bytes), (k.damaged p oid x e).drop 4 = (k.sk p oid x).drop 4 ++ e := fun k x e => by
    rw [Key.sk_eq, Key.damaged, List.drop_left' (toByte_length _ _), List.drop_left' (toByte_length _ _)]
  have l : ∀ (k : Key) (x : Nat), k.Valid p → ((k.sk p oid x).drop 4).length = p.index_bytes + 4 * p.n := fun k x hk => by
    rw [Key.sk_eq, List.drop_left' (toByte_length _ _), List.length_append, toByte_length, Key.mat_length hk]
  rw [d, d, List.take_append, List.drop_append, l k x hk, l k' y hk', ← h3]
  by_cases hj : j ≤ p.index_bytes + 4 * p.n
  · rw [show j - (p.index_bytes + 4 * p.n) = 0 by omega]; simp
  · rw [List.drop_of_length_le (l := (k.sk p oid x).drop 4) (by rw [l k x hk]; omega)]; simp

theorem crash_step_fast {oidp : Nat} {pp : Params} (hpp : f.parseFast oidp = some pp) (hp : f.parseFast oid = some p)
    (hH : coreHash P p.func p.n = some H) {junk : Nat → Bytes} (hj : Fresh junk) {pkb T m : Bytes}
    (hpk : pkb.length = pp.pk_bytes) {k : Key} (hk : k.Valid p) {x : Nat} (hx : x < 256 ^ p.index_bytes)
    {ext : Bytes} (hext : p.index_bytes + 4 * p.n + ext.length = p.sk_bytes)
    {mayFlush : Nat → Prop} {l0 : Nat} {out file' : Bytes}
    (h : CrashRunFast P f junk l0 mayFlush (Rfc.toByte oidp 4 ++ pkb ++ k.damaged p oid x ext ++ T) m out file') :
    fastOutput p H junk k x m out ∧
    ∃ k'' : Key, k''.Valid p ∧ ∃ j ext'', p.index_bytes + 4 * p.n + ext''.length = p.sk_bytes ∧
      file' = Rfc.toByte oidp 4 ++ pkb ++
        k''.damaged p oid (tornIndex p.index_bytes x (nextIdx p x) (min j p.index_bytes)) ext'' ++ T ∧
      (x < 2 ^ p.full_height - 1 → k'' = k) ∧
      ((∀ n ≤ p.sig_bytes + m.length, ¬ mayFlush n) → out ≠ [] → p.index_bytes ≤ j) := by
  obtain ⟨g, hskb, ho, _, _, _⟩ := parseFast_good hp
  obtain ⟨H', hH', hHl⟩ := Family.hashFast (P := P) hp
  rw [hH] at hH'
  obtain rfl := Option.some.inj hH'
  cases h with
  | early =>
    refine ⟨?_, k, hk, 0, ext, hext, ?_, fun _ => rfl, fun _ h => absurd rfl h⟩
    · rw [fastOutput]
      split
      · refine ⟨List.replicate (p.sig_bytes - (sigHead p H k x m).length) 0, ?_, List.nil_prefix⟩
        have hsg := g.sig_eq'
        have hB : (p.wots_len + p.tree_height) * p.n = p.wots_sig_bytes + p.tree_height * p.n := by rw [g.sig_wots]; ring
        have hd : p.d * ((p.wots_len + p.tree_height) * p.n) = (p.wots_len + p.tree_height) * p.n +
            (p.d - 1) * ((p.wots_len + p.tree_height) * p.n) := by
          obtain ⟨k, hk⟩ : ∃ k, p.d = k + 1 := ⟨p.d - 1, by have := g.d_pos; omega⟩
          rw [hk, Nat.add_sub_cancel]; ring
        rw [List.length_append, List.length_replicate, sigHead_length g hHl]
        omega
      · split <;> exact List.nil_prefix
    · rw [Nat.zero_min, tornIndex, Nat.sub_zero, Nat.mod_eq_of_lt hx, Nat.div_eq_of_lt (nextIdx_lt g), Nat.zero_mul, Nat.zero_add]
  | @writing off p' sk o sm s hread hsign hsm hio =>
    have hbody : ∀ (k : Key) (x : Nat) (e : Bytes), k.Valid p → p.index_bytes + 4 * p.n + e.length = p.sk_bytes →
        (Rfc.toByte x p.index_bytes ++ k.mat ++ e).length = p.sk_bytes := fun k x e hk he => by
      rw [List.length_append, List.length_append, toByte_length, Key.mat_length hk, he]
    have htake : ∀ (k : Key) (x : Nat) (e : Bytes), (k.damaged p oid x e).take 4 = Rfc.toByte oid 4 := fun k x e => by
      rw [Key.damaged, List.take_left' (toByte_length _ _)]
    rw [Key.damaged, uiSignReadFast_eq hpp hp pkb _ T hpk (hbody k x ext hk hext)] at hread
    simp only [Option.some.injEq, Prod.mk.injEq] at hread
    obtain ⟨rfl, rfl, rfl⟩ := hread
    rw [uiSignCallFast_eq] at hsign
    obtain ⟨of, hof, rfl⟩ := Option.map_eq_some_iff.mp hsign
    obtain ⟨b1, b2, ext', b3, b4⟩ := damaged_call (H := H) hp hH hk hx hext (hj _) rfl hof hsm
    rw [b4] at hio
    have hnk := nextKey_valid hk x
    have hl : (k.damaged p oid x ext).length = 4 + p.sk_bytes := by rw [Key.damaged, List.length_append, toByte_length, hbody k x ext hk hext]
    have hl' : ((nextKey p x k).damaged p oid (nextIdx p x) ext').length = 4 + p.sk_bytes := by
      rw [Key.damaged, List.length_append, toByte_length, hbody _ _ ext' hnk b3]
    have hol : oidLen = 4 := rfl
    rw [hol, List.take_of_length_le (by rw [List.length_drop, hl']; omega), ioStart_file,
      show 4 + pp.pk_bytes + 4 = (Rfc.toByte oidp 4 ++ pkb ++ (k.damaged p oid x ext).take 4).length by
        simp [toByte_length, hpk, hl]; omega] at hio
    have hl2 : ((k.damaged p oid x ext).drop 4).length = (((nextKey p x k).damaged p oid (nextIdx p x) ext').drop 4).length := by
      rw [List.length_drop, List.length_drop, hl, hl']
    have inv := ioInv_reach hl2 hio
    refine ⟨b2 _ (ioInv_prefix inv), ?_⟩
    obtain ⟨j, hj', hf, hpos, hc⟩ := inv
    obtain ⟨k'', hv, hsame, e⟩ := torn_damaged (oid := oid) hk hnk x (nextIdx p x) j (ext := ext) (ext' := ext')
    refine ⟨k'', hv, j, ext'.take (j - (p.index_bytes + 4 * p.n)) ++ ext.drop (j - (p.index_bytes + 4 * p.n)), ?_, ?_,
      fun h => hsame (by rw [nextKey, if_pos h]), ?_⟩
    rotate_left
    · rw [hf, keyFileAt, List.append_assoc _ (List.take j _), e, htake, Key.damaged]
      simp only [List.append_assoc]
    · intro hno hout
      have ht := ioInv_out hl2 (fun n hn => hno n (by omega)) hio
      have hjl : j = (((nextKey p x k).damaged p oid (nextIdx p x) ext').drop 4).length := by
        rcases ht with h | h | h
        · rcases hc with ⟨h1, _⟩ | ⟨h1, _⟩ | ⟨h1, _⟩ | ⟨h1, h2, _⟩ | ⟨h1, _⟩ <;> rw [h] at h1 <;> first | exact h2 | cases h1
        · rcases hc with ⟨h1, _⟩ | ⟨h1, _⟩ | ⟨h1, _⟩ | ⟨h1, _⟩ | ⟨h1, h2, _⟩ <;> rw [h] at h1 <;> first | exact h2 | cases h1
        · exact absurd h hout
      rw [List.length_drop, hl'] at hjl
      omega
    · rw [List.length_append, List.length_take, List.length_drop]
      omega

/-- **C55 (fast tool, one run).**  A run on a usable key with whatever traversal state, killed at whatever moment: the key
material has not changed, and the stored index is the old one, the next one, or larger by a power of 256 that divides the
next one. -/
theorem C55_torn_key_fast {oidp : Nat} {pp : Params} (hpp : f.parseFast oidp = some pp) (hp : f.parseFast oid = some p)
    (hH : coreHash P p.func p.n = some H) {junk : Nat → Bytes} (hj : Fresh junk) {pkb T m : Bytes}
    (hpk : pkb.length = pp.pk_bytes) {k : Key} (hk : k.Valid p) {idx : Nat} (hidx : idx < 2 ^ p.full_height - 1)
    {ext : Bytes} (hext : p.index_bytes + 4 * p.n + ext.length = p.sk_bytes)
    {mayFlush : Nat → Prop} {l0 : Nat} {out file' : Bytes}
    (h : CrashRunFast P f junk l0 mayFlush (Rfc.toByte oidp 4 ++ pkb ++ k.damaged p oid idx ext ++ T) m out file') :
    (∃ rest, (sigHead p H k idx m ++ rest).length = p.sig_bytes ∧ out <+: sigHead p H k idx m ++ rest ++ m) ∧
    ∃ x ext', p.index_bytes + 4 * p.n + ext'.length = p.sk_bytes ∧
      file' = Rfc.toByte oidp 4 ++ pkb ++ k.damaged p oid x ext' ++ T ∧
      (x = idx ∨ ∃ i ≤ p.index_bytes, 256 ^ i ∣ idx + 1 ∧ x = idx + 256 ^ i) := by
  obtain ⟨g, _⟩ := parseFast_good hp
  have hfit := g.idx_fits
  obtain ⟨h1, k'', hv, j, ext'', h2, h3, h4, _⟩ := crash_step_fast hpp hp hH hj hpk hk (by omega) hext h
  rw [fastOutput, if_pos hidx] at h1
  refine ⟨h1, _, ext'', h2, by rw [h4 hidx] at h3; exact h3, ?_⟩
  rw [nextIdx, if_pos hidx]
  rcases torn_succ (b := p.index_bytes) (idx := idx) (j := min j p.index_bytes) with h | ⟨h, h'⟩
  · exact Or.inl h
  · exact Or.inr ⟨_, Nat.sub_le _ _, h, h'⟩

theorem crash_trace_fast {oidp : Nat} {pp : Params} (hpp : f.parseFast oidp = some pp) (hp : f.parseFast oid = some p)
    (hH : coreHash P p.func p.n = some H) (h40 : 2 ^ p.full_height < 256 ^ p.index_bytes)
    {junk : Nat → Bytes} (hj : Fresh junk) {pkb T : Bytes} (hpk : pkb.length = pp.pk_bytes) (k : Key)
    (mayFlush : Nat → Prop) (l0 : Nat) : ∀ (rs : List CrashRecord) (k' : Key) (x lo : Nat) (ext : Bytes), k'.Valid p →
    x < 256 ^ p.index_bytes → p.index_bytes + 4 * p.n + ext.length = p.sk_bytes → (x < 2 ^ p.full_height - 1 → k' = k) → lo ≤ x →
    (∀ r ∈ rs, ∀ n ≤ p.sig_bytes + r.msg.length, ¬ mayFlush n) →
    CrashRuns (CrashRunFast P f junk l0 mayFlush) (Rfc.toByte oidp 4 ++ pkb ++ k'.damaged p oid x ext ++ T) rs →
    ∃ xs, xs.length = rs.length ∧ IndexTrace p (fun x r => fastOutput p H junk k x r.msg r.out) lo rs xs := by
  intro rs
  induction rs with
  | nil => intro _ _ _ _ _ _ _ _ _ _ _; exact ⟨[], rfl, trivial⟩
  | cons r rs ih =>
    intro k' x lo ext hk' hx hext hkk hlo hno hr
    obtain ⟨h1, h2⟩ := hr
    obtain ⟨hpre, k'', hv, j, ext'', he, hf, hsame, hfull⟩ := crash_step_fast hpp hp hH hj hpk hk' hx hext h1
    obtain ⟨g1, g2, g3⟩ := nextIdx_ge h40 hx
    have hge : x ≤ tornIndex p.index_bytes x (nextIdx p x) (min j p.index_bytes) := torn_ge g1
    rw [hf] at h2
    have hbound : (if r.out = [] ∨ 2 ^ p.full_height ≤ x then x else x + 1) ≤
        tornIndex p.index_bytes x (nextIdx p x) (min j p.index_bytes) := by
      split
      · exact hge
      · rename_i hc
        rw [not_or, Nat.not_le] at hc
        have hj' := hfull (hno r (List.mem_cons_self ..)) hc.1
        rw [Nat.min_eq_right hj', tornIndex, Nat.sub_self, pow_zero, Nat.div_one, Nat.mul_one, Nat.mod_one, Nat.add_zero]
        exact g2 hc.2
    obtain ⟨xs, hl, ht⟩ := ih k'' _ _ ext'' hv (torn_lt (Nat.min_le_right _ _) g3) he
      (fun h => by rw [hsame (by omega), hkk (by omega)]) hbound
      (fun r' hr' => hno r' (List.mem_cons_of_mem _ hr')) h2
    refine ⟨x :: xs, by simp [hl], hlo, ?_, ht⟩
    by_cases hc : x < 2 ^ p.full_height - 1
    · rw [← hkk hc]; exact hpre
    · simp only [fastOutput, if_neg hc] at hpre ⊢
      exact hpre

/-- **C55 (fast tool, histories).**  Any number of runs of the signing tool linked with the fast implementation, one after
the other on one key file, each killed at an arbitrary moment or not at all, the traversal state in the file being torn
or arbitrary from the start.  If no run does anything undefined and the signed messages fit into the stdout buffer, the runs
have indices which never decrease and which increase after every run that has output anything; what a run has output begins
with the index, the randomiser and the one-time signature of its index (from the last index on, it does not depend on the
key).  So no one-time key signs two messages.  (For all sets except those of height 40.) -/
theorem C55_crash_history_fast_partial {oidp : Nat} {pp : Params} (hpp : f.parseFast oidp = some pp) (hp : f.parseFast oid = some p)
    (hH : coreHash P p.func p.n = some H) (h40 : 2 ^ p.full_height < 256 ^ p.index_bytes)
    {junk : Nat → Bytes} (hj : Fresh junk) {pkb T : Bytes} (hpk : pkb.length = pp.pk_bytes) (k : Key) (hk : k.Valid p)
    (idx : Nat) (hidx : idx < 256 ^ p.index_bytes) (ext : Bytes) (hext : p.index_bytes + 4 * p.n + ext.length = p.sk_bytes)
    (mayFlush : Nat → Prop) (l0 : Nat) (rs : List CrashRecord)
    (hno : ∀ r ∈ rs, ∀ n ≤ p.sig_bytes + r.msg.length, ¬ mayFlush n)
    (hr : CrashRuns (CrashRunFast P f junk l0 mayFlush) (Rfc.toByte oidp 4 ++ pkb ++ (Rfc.toByte oid 4 ++
      (Rfc.toByte idx p.index_bytes ++ (k.skSeed ++ k.skPrf ++ k.root ++ k.pubSeed) ++ ext)) ++ T) rs) :
    ∃ xs : List Nat, xs.length = rs.length ∧
      (∀ (i : Nat) r x, rs[i]? = some r → xs[i]? = some x → idx ≤ x ∧
        (x < 2 ^ p.full_height - 1 → ∃ rest, (sigHead p H k x r.msg ++ rest).length = p.sig_bytes ∧
          r.out <+: sigHead p H k x r.msg ++ rest ++ r.msg) ∧
        (x = 2 ^ p.full_height - 1 → r.out <+: fastLastSig p H r.msg ++ r.msg) ∧
        (2 ^ p.full_height ≤ x → r.out <+: junk (p.sig_bytes + r.msg.length))) ∧
      (∀ (i j : Nat) r x y, i < j → rs[i]? = some r → xs[i]? = some x → xs[j]? = some y → x ≤ y ∧
        (r.out ≠ [] → x < 2 ^ p.full_height → x < y)) := by
  obtain ⟨xs, hl, ht⟩ := crash_trace_fast hpp hp hH h40 hj hpk k mayFlush l0 rs k idx idx ext hk hidx hext (fun _ => rfl) (Nat.le_refl _) hno hr
  obtain ⟨a, b⟩ := IndexTrace.spec rs xs idx ht
  refine ⟨xs, hl, ?_, b⟩
  intro i r x h1 h2
  obtain ⟨c1, c2⟩ := a i r x h1 h2
  have hpos : 0 < 2 ^ p.full_height := by positivity
  refine ⟨c1, fun h => ?_, fun h => ?_, fun h => ?_⟩
  · rwa [fastOutput, if_pos h] at c2
  · rwa [fastOutput, if_neg (by omega), if_pos h] at c2
  · rwa [fastOutput, if_neg (by omega), if_neg (by omega)] at c2

end Xmss
