import Verif.Model.UiCrash
import Verif.Props.Ui
import Verif.Proof.FastBody
/-
C55: crashes of the signing tool in the middle of its write to the key file.
-/
namespace Xmss

variable {P : Prims} {f : Family} {oid : Nat} {p : Params} {H : Bytes → Bytes}

/-- The stored index after the first `j` of its `b` bytes have been replaced by those of `new`. -/
def tornIndex (b old new j : Nat) : Nat := new / 256 ^ (b - j) * 256 ^ (b - j) + old % 256 ^ (b - j)

theorem toByte_split (x b j : Nat) (hj : j ≤ b) : Rfc.toByte x b = Rfc.toByte (x / 256 ^ (b - j)) j ++ Rfc.toByte x (b - j) := by
  apply toNat_injective
  · rw [List.length_append, toByte_length, toByte_length, toByte_length]; omega
  · rw [toNat_append, toNat_toByte, toNat_toByte, toNat_toByte, toByte_length]
    have e : 256 ^ b = 256 ^ (b - j) * 256 ^ j := by rw [← pow_add]; congr 1; omega
    rw [e, Nat.mod_mul, Nat.mul_comm, Nat.add_comm]

theorem torn_toByte {b old new j : Nat} (hj : j ≤ b) :
    (Rfc.toByte new b).take j ++ (Rfc.toByte old b).drop j = Rfc.toByte (tornIndex b old new j) b := by
  have hm : 0 < 256 ^ (b - j) := by positivity
  rw [toByte_split new b j hj, toByte_split old b j hj, toByte_split (tornIndex b old new j) b j hj,
    List.take_left' (toByte_length _ _), List.drop_left' (toByte_length _ _)]
  rw [tornIndex, Nat.add_comm, Nat.add_mul_div_right _ _ hm, Nat.div_eq_of_lt (Nat.mod_lt _ hm), Nat.zero_add]
  congr 1
  apply toNat_injective
  · simp [toByte_length]
  · rw [toNat_toByte, toNat_toByte, Nat.add_mul_mod_self_right, Nat.mod_mod]

theorem torn_ge {b old new j : Nat} (h : old ≤ new) : old ≤ tornIndex b old new j := by
  rw [tornIndex]
  have h1 : old / 256 ^ (b - j) ≤ new / 256 ^ (b - j) := Nat.div_le_div_right h
  have h2 := Nat.div_add_mod old (256 ^ (b - j))
  have h3 := Nat.mul_le_mul_left (256 ^ (b - j)) h1
  rw [Nat.mul_comm (new / _)]
  omega

theorem torn_lt {b old new j : Nat} (hj : j ≤ b) (h : new < 256 ^ b) : tornIndex b old new j < 256 ^ b := by
  have hm : 0 < 256 ^ (b - j) := by positivity
  have e : 256 ^ b = 256 ^ j * 256 ^ (b - j) := by rw [← pow_add]; congr 1; omega
  have h1 : new / 256 ^ (b - j) < 256 ^ j := by rw [Nat.div_lt_iff_lt_mul hm, ← e]; exact h
  rw [tornIndex, e]
  have h2 := Nat.mod_lt old hm
  have h3 := Nat.mul_le_mul_right (256 ^ (b - j)) h1
  rw [Nat.succ_mul] at h3
  omega

/-- Between `idx` and `idx + 1`: either nothing visible has changed, or all bytes up to a carry have been written. -/
theorem torn_succ {b idx j : Nat} :
    tornIndex b idx (idx + 1) j = idx ∨ (256 ^ (b - j) ∣ idx + 1 ∧ tornIndex b idx (idx + 1) j = idx + 256 ^ (b - j)) := by
  have hm : 0 < 256 ^ (b - j) := by positivity
  rw [tornIndex]
  generalize 256 ^ (b - j) = m at hm ⊢
  by_cases hd : m ∣ idx + 1
  · right
    refine ⟨hd, ?_⟩
    obtain ⟨q, hq⟩ := hd
    rw [hq, Nat.mul_div_cancel_left _ hm]
    have : idx % m = m - 1 := by
      cases q with
      | zero => simp at hq
      | succ q =>
        rw [Nat.mul_succ] at hq
        have : idx = m * q + (m - 1) := by omega
        rw [this, Nat.mul_add_mod, Nat.mod_eq_of_lt (by omega)]
    rw [this, Nat.mul_comm q m]
    omega
  · left
    rw [Nat.succ_div_of_not_dvd hd, Nat.mul_comm]
    exact Nat.div_add_mod idx m

/-! ### A secret key torn by a crash -/

/-- Everything behind the index in a secret key of the simple implementation. -/
def Key.mat (k : Key) : Bytes := k.skSeed ++ k.skPrf ++ k.root ++ k.pubSeed

theorem Key.sk_eq (k : Key) (p : Params) (oid idx : Nat) :
    k.sk p oid idx = Rfc.toByte oid 4 ++ (Rfc.toByte idx p.index_bytes ++ k.mat) := by
  simp [Key.sk, Key.mat]

theorem Key.mat_length {k : Key} (h : k.Valid p) : k.mat.length = 4 * p.n := by
  simp only [Key.mat, List.length_append, h.skSeed, h.skPrf, h.root, h.pubSeed]; omega

theorem mat_of_length (b : Bytes) (h : b.length = 4 * p.n) : ∃ k : Key, k.Valid p ∧ k.mat = b := by
  obtain ⟨k, hk, idx, hi, e⟩ := sk_decompose p (Rfc.toByte 0 p.index_bytes ++ b) (by rw [List.length_append, toByte_length, h])
  refine ⟨k, hk, ?_⟩
  have := List.append_inj (s₁ := Rfc.toByte 0 p.index_bytes) (s₂ := Rfc.toByte idx p.index_bytes) (t₁ := b) (t₂ := k.mat)
    (by rw [e, Key.mat]; simp) (by simp [toByte_length])
  exact this.2.symm

/-- The first `j` bytes of the new secret key over the old one. -/
theorem torn_sk {k k' : Key} (hk : k.Valid p) (hk' : k'.Valid p) (x y j : Nat) :
    ∃ k'' : Key, k''.Valid p ∧ (k' = k → k'' = k) ∧
      ((k'.sk p oid y).drop 4).take j ++ ((k.sk p oid x).drop 4).drop j =
        Rfc.toByte (tornIndex p.index_bytes x y (min j p.index_bytes)) p.index_bytes ++ k''.mat ∧
      (j ≤ p.index_bytes → k'' = k) ∧ (p.index_bytes + 4 * p.n ≤ j → k'' = k') := by
  have d : ∀ (k : Key) (x : Nat), (k.sk p oid x).drop 4 = Rfc.toByte x p.index_bytes ++ k.mat := fun k x => by
    rw [Key.sk_eq, List.drop_left' (toByte_length _ _)]
  rw [d, d]
  by_cases hj : j ≤ p.index_bytes
  · refine ⟨k, hk, fun _ => rfl, ?_, fun _ => rfl, ?_⟩
    · rw [Nat.min_eq_left hj, ← torn_toByte hj, List.take_append_of_le_length (by rw [toByte_length]; exact hj),
        List.drop_append_of_le_length (by rw [toByte_length]; exact hj)]
      simp
    · intro h
      have h0 : p.n = 0 := by omega
      have h1 := Key.mat_length hk
      have h2 := Key.mat_length hk'
      cases k; cases k'
      have a := hk.skSeed; have b := hk.skPrf; have c := hk.root; have d := hk.pubSeed
      have a' := hk'.skSeed; have b' := hk'.skPrf; have c' := hk'.root; have d' := hk'.pubSeed
      rw [h0, List.length_eq_zero_iff] at *
      simp_all
  · obtain ⟨i, rfl⟩ : ∃ i, j = p.index_bytes + i := ⟨j - p.index_bytes, by omega⟩
    obtain ⟨k'', hv, e⟩ := mat_of_length (p := p) (k'.mat.take i ++ k.mat.drop i)
      (by rw [List.length_append, List.length_take, List.length_drop, Key.mat_length hk, Key.mat_length hk']; omega)
    have hinj : ∀ a b : Key, a.Valid p → b.Valid p → a.mat = b.mat → a = b := by
      intro a b ha hb h
      obtain ⟨h1, h4⟩ := List.append_inj' h (by rw [ha.pubSeed, hb.pubSeed])
      obtain ⟨h1, h3⟩ := List.append_inj' h1 (by rw [ha.root, hb.root])
      obtain ⟨h1, h2⟩ := List.append_inj' h1 (by rw [ha.skPrf, hb.skPrf])
      cases a; cases b; simp_all
    refine ⟨k'', hv, ?_, ?_, fun h => absurd h hj, ?_⟩
    · rintro rfl
      apply hinj _ _ hv hk
      rw [e, List.take_append_drop]
    · rw [Nat.min_eq_right (by omega), ← torn_toByte (Nat.le_refl _), e]
      have l1 := toByte_length y p.index_bytes
      have l2 := toByte_length x p.index_bytes
      rw [List.take_of_length_le (l := Rfc.toByte y _) (by omega), List.drop_of_length_le (l := Rfc.toByte x _) (by omega), List.append_nil,
        List.take_append, List.drop_append, List.take_of_length_le (by omega), List.drop_of_length_le (by omega), l1, l2]
      simp
    · intro h
      apply hinj _ _ hv hk'
      rw [e, List.take_of_length_le (by rw [Key.mat_length hk']; omega), List.drop_of_length_le (by rw [Key.mat_length hk]; omega),
        List.append_nil]

/-! ### One run -/

/-- What the run on key `k` with stored index `x` writes to stdout when it is not killed. -/
def runOutput (p : Params) (H : Bytes → Bytes) (junk : Nat → Bytes) (k : Key) (x : Nat) (m : Bytes) : Bytes :=
  (if x < 2 ^ p.full_height - 1 then (suiteOf p H).sign k.skSeed k.skPrf k.root k.pubSeed x m
    else if x = 2 ^ p.full_height - 1 then lastSig p H m
    else (junk (p.sig_bytes + m.length)).take p.sig_bytes) ++ m

theorem ioInv_prefix {A old T newKey sm : Bytes} {s : IoState} (h : IoInv A old T newKey sm s) : s.out <+: sm := by
  obtain ⟨j, _, _, _, hc⟩ := h
  rcases hc with ⟨_, _, _, h, _⟩ | ⟨_, _, h, _⟩ | ⟨_, _, h⟩ | ⟨_, _, _, h⟩ | ⟨_, _, _, h, _⟩
  · rw [h]; exact List.nil_prefix
  · rw [h]; exact List.nil_prefix
  · exact ⟨_, h⟩
  · exact ⟨_, h⟩
  · exact h ▸ List.prefix_refl _

theorem crash_step {oidp : Nat} {pp : Params} (hpp : f.parse oidp = some pp) (hp : f.parse oid = some p)
    (hH : coreHash P p.func p.n = some H) {junk : Nat → Bytes} (hj : Fresh junk) {pkb T m : Bytes}
    (hpk : pkb.length = pp.pk_bytes) {k : Key} (hk : k.Valid p) {x : Nat} (hx : x < 256 ^ p.index_bytes)
    {mayFlush : Nat → Prop} {l0 : Nat} {out file' : Bytes}
    (h : CrashRunSlow P f junk l0 mayFlush (Rfc.toByte oidp 4 ++ pkb ++ k.sk p oid x ++ T) m out file') :
    out <+: runOutput p H junk k x m ∧
    ∃ k'' : Key, k''.Valid p ∧ ∃ j, file' = Rfc.toByte oidp 4 ++ pkb ++
        k''.sk p oid (tornIndex p.index_bytes x (nextIdx p x) (min j p.index_bytes)) ++ T ∧
      (x < 2 ^ p.full_height - 1 → k'' = k) ∧ (j ≤ p.index_bytes → k'' = k) ∧
      ((∀ n ≤ p.sig_bytes + m.length, ¬ mayFlush n) → out ≠ [] → p.index_bytes ≤ j ∧ k'' = nextKey p x k) := by
  obtain ⟨g, hskb, ho, _⟩ := Family.facts (P := P) hp
  cases h with
  | early =>
    refine ⟨List.nil_prefix, k, hk, 0, ?_, fun _ => rfl, fun _ => rfl, fun _ h => absurd rfl h⟩
    rw [Nat.zero_min, tornIndex, Nat.sub_zero, Nat.mod_eq_of_lt hx]
    rw [Nat.div_eq_of_lt, Nat.zero_mul, Nat.zero_add]
    unfold nextIdx
    have := g.idx_fits
    split
    · omega
    · split
      · exact Nat.mod_lt _ (by positivity)
      · have : 0 < 256 ^ p.index_bytes := by positivity
        omega
  | @writing off p' sk o sm s hread hsign hsm hio =>
    rw [uiSignRead_eq hpp hp pkb _ T hpk (Key.sk_length hk hskb oid x) (Key.sk_take k p oid x)] at hread
    simp only [Option.some.injEq, Prod.mk.injEq] at hread
    obtain ⟨rfl, rfl, rfl⟩ := hread
    rw [sign_call hp hH k hk x hx _ _ m (by rw [hj])] at hsign
    simp only [Option.some.injEq] at hsign
    subst hsign
    simp only at hsm hio
    have hnk := nextKey_valid hk x
    have hl' := Key.sk_length hnk hskb oid (nextIdx p x)
    have hl := Key.sk_length hk hskb oid x
    have hsig : ∀ a b c d y, ((suiteOf p H).sign a b c d y m).length = p.sig_bytes := fun a b c d y =>
      sign_length g (Family.hash_length hp hH) a b c d y m
    have hsb := g.sig_eq
    have hlen : (runOutput p H junk k x m).length = p.sig_bytes + m.length := by
      rw [runOutput, List.length_append]
      congr 1
      split
      · exact hsig _ _ _ _ _
      · split
        · rw [lastSig, List.length_append, List.length_drop, hsig, List.length_replicate]; omega
        · rw [List.length_take, hj]; omega
    have hsm' : sm = runOutput p H junk k x m := by
      rw [List.drop_of_length_le (l := junk _) (by rw [hj]), List.append_nil] at hsm
      have e : runOutput p H junk k x m = (if x < 2 ^ p.full_height - 1 then (suiteOf p H).sign k.skSeed k.skPrf k.root k.pubSeed x m
          else if x = 2 ^ p.full_height - 1 then List.replicate p.index_bytes 0xFF ++ ((suiteOf p H).sign (List.replicate p.n 0)
            (List.replicate p.n 0) (List.replicate p.n 0) (List.replicate p.n 0) x m).drop p.index_bytes
          else (junk (p.sig_bytes + m.length)).take p.sig_bytes) ++ m := by
        rw [runOutput]
        congr 1
        split
        · rfl
        · split
          · rename_i h; rw [lastSig, h]
          · rfl
      rw [← e, rd_some (by rw [hlen]; omega), List.drop_zero, List.take_of_length_le (by omega)] at hsm
      exact (Option.some.inj hsm).symm
    subst hsm'
    have hol : oidLen = 4 := rfl
    rw [hol, List.take_of_length_le (by rw [List.length_drop, hl']; omega), ioStart_file,
      show 4 + pp.pk_bytes + 4 = (Rfc.toByte oidp 4 ++ pkb ++ (k.sk p oid x).take 4).length by
        simp [toByte_length, hpk, hl]; omega] at hio
    have hl2 : ((k.sk p oid x).drop 4).length = (((nextKey p x k).sk p oid (nextIdx p x)).drop 4).length := by
      rw [List.length_drop, List.length_drop, hl, hl']
    have inv := ioInv_reach hl2 hio
    refine ⟨ioInv_prefix inv, ?_⟩
    obtain ⟨j, hj', hf, hpos, hc⟩ := inv
    obtain ⟨k'', hv, hsame, e, hle, hge⟩ := torn_sk (oid := oid) hk hnk x (nextIdx p x) j
    refine ⟨k'', hv, j, ?_, fun h => hsame (by rw [nextKey, if_pos h]), hle, ?_⟩
    · rw [hf, keyFileAt, List.append_assoc _ (List.take j _), e, Key.sk_take, Key.sk_eq]
      simp
    · intro hno hout
      have ht := ioInv_out hl2 (by rw [hlen]; exact hno) hio
      have hjl : j = (((nextKey p x k).sk p oid (nextIdx p x)).drop 4).length := by
        rcases ht with h | h | h
        · rcases hc with ⟨h1, _⟩ | ⟨h1, _⟩ | ⟨h1, _⟩ | ⟨h1, h2, _⟩ | ⟨h1, _⟩ <;> rw [h] at h1 <;> first | exact h2 | cases h1
        · rcases hc with ⟨h1, _⟩ | ⟨h1, _⟩ | ⟨h1, _⟩ | ⟨h1, _⟩ | ⟨h1, h2, _⟩ <;> rw [h] at h1 <;> first | exact h2 | cases h1
        · exact absurd h hout
      rw [List.length_drop, hl', hskb] at hjl
      exact ⟨by omega, hge (by omega)⟩

/-- **C55.**  A run of the signing tool on a usable key (stored index `idx` before the last one), killed at whatever moment and
under whatever buffering, leaves a key file in which nothing but the index has changed, and the stored index is the old
one, or the next one, or (when the write was cut off behind a carry) larger by a power of 256: never smaller.  What has
left the process is a prefix of the signature with index `idx` and the message. -/
theorem C55_torn_key {oidp : Nat} {pp : Params} (hpp : f.parse oidp = some pp) (hp : f.parse oid = some p)
    (hH : coreHash P p.func p.n = some H) {junk : Nat → Bytes} (hj : Fresh junk) {pkb T m : Bytes}
    (hpk : pkb.length = pp.pk_bytes) {k : Key} (hk : k.Valid p) {idx : Nat} (hidx : idx < 2 ^ p.full_height - 1)
    {mayFlush : Nat → Prop} {l0 : Nat} {out file' : Bytes}
    (h : CrashRunSlow P f junk l0 mayFlush (Rfc.toByte oidp 4 ++ pkb ++ k.sk p oid idx ++ T) m out file') :
    out <+: (suiteOf p H).sign k.skSeed k.skPrf k.root k.pubSeed idx m ++ m ∧
    ∃ x, file' = Rfc.toByte oidp 4 ++ pkb ++ k.sk p oid x ++ T ∧
      (x = idx ∨ ∃ i ≤ p.index_bytes, 256 ^ i ∣ idx + 1 ∧ x = idx + 256 ^ i) := by
  obtain ⟨g, _⟩ := Family.facts (P := P) hp
  have hfit := g.idx_fits
  obtain ⟨h1, k'', hv, j, h2, h3, _⟩ := crash_step hpp hp hH hj hpk hk (by omega) h
  rw [runOutput, if_pos hidx] at h1
  refine ⟨h1, _, by rw [h3 hidx] at h2; exact h2, ?_⟩
  rw [nextIdx, if_pos hidx]
  rcases torn_succ (b := p.index_bytes) (idx := idx) (j := min j p.index_bytes) with h | ⟨h, h'⟩
  · exact Or.inl h
  · exact Or.inr ⟨_, Nat.sub_le _ _, h, h'⟩

/-- Every cut inside the index bytes can happen. -/
theorem crash_exists {oidp : Nat} {pp : Params} (hpp : f.parse oidp = some pp) (hp : f.parse oid = some p)
    {junk : Nat → Bytes} (hj : Fresh junk) {pkb T m : Bytes}
    (hpk : pkb.length = pp.pk_bytes) {k : Key} (hk : k.Valid p) {x : Nat} (hx : x < 256 ^ p.index_bytes)
    (mayFlush : Nat → Prop) (l0 : Nat) {j : Nat} (hj0 : 0 < j) (hjb : j ≤ p.index_bytes) :
    CrashRunSlow P f junk l0 mayFlush (Rfc.toByte oidp 4 ++ pkb ++ k.sk p oid x ++ T) m []
      (Rfc.toByte oidp 4 ++ pkb ++ k.sk p oid (tornIndex p.index_bytes x (nextIdx p x) j) ++ T) := by
  obtain ⟨g, hskb, _, H, hH⟩ := Family.facts (P := P) hp
  have hnk := nextKey_valid hk x
  have hl := Key.sk_length hk hskb oid x
  have hl' := Key.sk_length hnk hskb oid (nextIdx p x)
  have hsign := sign_call (P := P) hp hH k hk x hx (junk (p.sig_bytes + m.length)) l0 m (by rw [hj])
  obtain ⟨sm, hsm⟩ : ∃ sm, rd ((if x < 2 ^ p.full_height - 1 then
            (suiteOf p H).sign k.skSeed k.skPrf k.root k.pubSeed x m
          else if x = 2 ^ p.full_height - 1 then
            List.replicate p.index_bytes 0xFF ++ ((suiteOf p H).sign (List.replicate p.n 0) (List.replicate p.n 0)
              (List.replicate p.n 0) (List.replicate p.n 0) x m).drop p.index_bytes
          else (junk (p.sig_bytes + m.length)).take p.sig_bytes) ++ m ++
            (junk (p.sig_bytes + m.length)).drop (p.sig_bytes + m.length)) 0 (p.sig_bytes + m.length) = some sm := by
    refine ⟨_, rd_some ?_⟩
    have hsig : ∀ a b c d y, ((suiteOf p H).sign a b c d y m).length = p.sig_bytes := fun a b c d y =>
      sign_length g (Family.hash_length hp hH) a b c d y m
    have hsb := g.sig_eq
    rw [List.length_append, List.length_append]
    split
    · rw [hsig]; omega
    · split
      · rw [List.length_append, List.length_drop, hsig, List.length_replicate]; omega
      · rw [List.length_take, hj]; omega
  let A' := Rfc.toByte oidp 4 ++ pkb ++ (k.sk p oid x).take 4
  let new := ((nextKey p x k).sk p oid (nextIdx p x)).drop 4
  have hA : 4 + pp.pk_bytes + oidLen = A'.length := by
    simp only [A', List.length_append, toByte_length, hpk, List.length_take, hl]
    show _ + 4 = _
    omega
  have hnl : new.length = p.sk_bytes := by simp only [new, List.length_drop, hl']; omega
  have hjl : j ≤ new.length := by rw [hnl, hskb]; omega
  have hfile : Rfc.toByte oidp 4 ++ pkb ++ k.sk p oid x ++ T = A' ++ (k.sk p oid x).drop 4 ++ T := ioStart_file _ _ _
  obtain ⟨k'', _, _, e, hk'', _⟩ := torn_sk (oid := oid) hk hnk x (nextIdx p x) j
  have hkk := hk'' hjb
  subst hkk
  rw [Nat.min_eq_left hjb] at e
  have hw : wr (A' ++ (k''.sk p oid x).drop 4 ++ T) A'.length (new.take j) =
      some (Rfc.toByte oidp 4 ++ pkb ++ k''.sk p oid (tornIndex p.index_bytes x (nextIdx p x) j) ++ T) := by
    rw [wr_mid (y := ((k''.sk p oid x).drop 4).take j) A' (((k''.sk p oid x).drop 4).drop j ++ T) ?_ rfl ?_]
    · have : A' ++ new.take j ++ (((k''.sk p oid x).drop 4).drop j ++ T) =
          A' ++ (new.take j ++ ((k''.sk p oid x).drop 4).drop j) ++ T := by simp
      rw [this, e, Key.sk_eq]
      simp only [A', Key.sk_take]
      simp
    · rw [List.append_assoc A' (List.take j _), ← List.append_assoc (List.take j _), List.take_append_drop, List.append_assoc]
    · rw [List.length_take, List.length_take, hnl, List.length_drop, hl]
      congr 1; omega
  have hio : IoReach mayFlush (((nextKey p x k'').sk p oid (nextIdx p x)).drop oidLen |>.take p.sk_bytes) sm
      (ioStart (Rfc.toByte oidp 4 ++ pkb ++ k''.sk p oid x ++ T) (4 + pp.pk_bytes + oidLen))
      { keyFile := Rfc.toByte oidp 4 ++ pkb ++ k''.sk p oid (tornIndex p.index_bytes x (nextIdx p x) j) ++ T
        keyPos := A'.length + j
        keyPend := new.drop j
        out := []
        outPend := sm
        todo := [.closeKey, .exit] } := by
    rw [hfile, hA, show ((nextKey p x k'').sk p oid (nextIdx p x)).drop oidLen = new from rfl, List.take_of_length_le (by rw [hnl])]
    refine .step (.step (.step .refl (.writeKey _ _ rfl)) (.writeOut _ _ rfl)) ?_
    refine IoStep.flushKey _ j _ (by omega) ?_ (Or.inr rfl) ?_
    · simpa [ioStart] using hjl
    · simpa [ioStart] using hw
  exact CrashRun.writing (read := uiSignRead f) (sign := f.sign P) (junk := junk) (smlen0 := l0) (m := m)
    (uiSignRead_eq hpp hp pkb _ T hpk hl (Key.sk_take k'' p oid x)) hsign hsm hio

/-- **C55.**  These jumps happen: whenever `256^i` divides the next index, the run can be killed in such a way that no
signature byte has left it and the stored index has moved on by `256^i`; the indices between are lost. -/
theorem C55_indices_can_be_lost {oidp : Nat} {pp : Params} (hpp : f.parse oidp = some pp) (hp : f.parse oid = some p)
    {junk : Nat → Bytes} (hj : Fresh junk) {pkb T m : Bytes}
    (hpk : pkb.length = pp.pk_bytes) {k : Key} (hk : k.Valid p) {idx : Nat} (hidx : idx < 2 ^ p.full_height - 1)
    (mayFlush : Nat → Prop) (l0 : Nat) {i : Nat} (hi : i < p.index_bytes) (hd : 256 ^ i ∣ idx + 1) :
    CrashRunSlow P f junk l0 mayFlush (Rfc.toByte oidp 4 ++ pkb ++ k.sk p oid idx ++ T) m []
      (Rfc.toByte oidp 4 ++ pkb ++ k.sk p oid (idx + 256 ^ i) ++ T) := by
  obtain ⟨g, hskb, _, H, hH⟩ := Family.facts (P := P) hp
  have hfit := g.idx_fits
  have h := crash_exists (P := P) (m := m) (T := T) hpp hp hj hpk hk (x := idx) (by omega) mayFlush l0 (j := p.index_bytes - i) (by omega)
    (by omega)
  have ht : tornIndex p.index_bytes idx (nextIdx p idx) (p.index_bytes - i) = idx + 256 ^ i := by
    have hb : p.index_bytes - (p.index_bytes - i) = i := by omega
    rw [nextIdx, if_pos hidx]
    rcases torn_succ (b := p.index_bytes) (idx := idx) (j := p.index_bytes - i) with h | ⟨_, h⟩
    · exfalso
      rw [tornIndex, hb] at h
      obtain ⟨q, hq⟩ := hd
      have hm : 0 < 256 ^ i := by positivity
      rw [hq, Nat.mul_div_cancel_left _ hm, Nat.mul_comm q] at h
      omega
    · rw [h, hb]
  rwa [ht] at h

/-- **C55 is false for the sets of height 40.**  There the index bytes wrap around after the last index: a run on the last
index that is killed after the first byte of the key file has been written leaves the complete key material with the stored
index `2^32 - 1`, and all indices from there on can be used once more. -/
theorem C55_fails_for_height_40 {oidp : Nat} {pp : Params} (hpp : f.parse oidp = some pp) (hp : f.parse oid = some p)
    (h40 : p.full_height = 40) (hb : p.index_bytes = 5) {junk : Nat → Bytes} (hj : Fresh junk) {pkb T m : Bytes}
    (hpk : pkb.length = pp.pk_bytes) {k : Key} (hk : k.Valid p) (mayFlush : Nat → Prop) (l0 : Nat) :
    CrashRunSlow P f junk l0 mayFlush (Rfc.toByte oidp 4 ++ pkb ++ k.sk p oid (2 ^ 40 - 1) ++ T) m []
      (Rfc.toByte oidp 4 ++ pkb ++ k.sk p oid (2 ^ 32 - 1) ++ T) := by
  have h := crash_exists (P := P) (m := m) (T := T) hpp hp hj hpk hk (x := 2 ^ 40 - 1) (by rw [hb]; decide) mayFlush l0 (j := 1) (by omega)
    (by omega)
  have ht : tornIndex p.index_bytes (2 ^ 40 - 1) (nextIdx p (2 ^ 40 - 1)) 1 = 2 ^ 32 - 1 := by
    rw [nextIdx, h40, hb]; decide
  rwa [ht] at h

/-! ### Histories of runs, each killed somewhere -/

theorem nextIdx_ge (h40 : 2 ^ p.full_height < 256 ^ p.index_bytes) {x : Nat} (hx : x < 256 ^ p.index_bytes) :
    x ≤ nextIdx p x ∧ (x < 2 ^ p.full_height → x < nextIdx p x) ∧ nextIdx p x < 256 ^ p.index_bytes := by
  have hpos : 0 < 2 ^ p.full_height := by positivity
  unfold nextIdx
  split
  · omega
  · split
    · rw [Nat.mod_eq_of_lt h40]; omega
    · omega

/-- `xs` are possible indices of the runs `rs`, the first at least `lo`: `Q` relates index and run, and each run that has
output anything uses up its index. -/
def IndexTrace (p : Params) (Q : Nat → CrashRecord → Prop) : Nat → List CrashRecord → List Nat → Prop
  | _, [], [] => True
  | lo, r :: rs, x :: xs => lo ≤ x ∧ Q x r ∧
      IndexTrace p Q (if r.out = [] ∨ 2 ^ p.full_height ≤ x then x else x + 1) rs xs
  | _, _, _ => False

theorem crash_trace {oidp : Nat} {pp : Params} (hpp : f.parse oidp = some pp) (hp : f.parse oid = some p)
    (hH : coreHash P p.func p.n = some H) (h40 : 2 ^ p.full_height < 256 ^ p.index_bytes)
    {junk : Nat → Bytes} (hj : Fresh junk) {pkb T : Bytes} (hpk : pkb.length = pp.pk_bytes) (k : Key)
    (mayFlush : Nat → Prop) (l0 : Nat) : ∀ (rs : List CrashRecord) (k' : Key) (x lo : Nat), k'.Valid p →
    x < 256 ^ p.index_bytes → (x < 2 ^ p.full_height - 1 → k' = k) → lo ≤ x →
    (∀ r ∈ rs, ∀ n ≤ p.sig_bytes + r.msg.length, ¬ mayFlush n) →
    CrashRuns (CrashRunSlow P f junk l0 mayFlush) (Rfc.toByte oidp 4 ++ pkb ++ k'.sk p oid x ++ T) rs →
    ∃ xs, xs.length = rs.length ∧ IndexTrace p (fun x r => r.out <+: runOutput p H junk k x r.msg) lo rs xs := by
  intro rs
  induction rs with
  | nil => intro _ _ _ _ _ _ _ _ _; exact ⟨[], rfl, trivial⟩
  | cons r rs ih =>
    intro k' x lo hk' hx hkk hlo hno hr
    obtain ⟨h1, h2⟩ := hr
    obtain ⟨hpre, k'', hv, j, hf, hsame, _, hfull⟩ := crash_step hpp hp hH hj hpk hk' hx h1
    obtain ⟨g1, g2, g3⟩ := nextIdx_ge h40 hx
    have hge : x ≤ tornIndex p.index_bytes x (nextIdx p x) (min j p.index_bytes) := torn_ge g1
    rw [hf] at h2
    have hbound : (if r.out = [] ∨ 2 ^ p.full_height ≤ x then x else x + 1) ≤
        tornIndex p.index_bytes x (nextIdx p x) (min j p.index_bytes) := by
      split
      · exact hge
      · rename_i hc
        rw [not_or, Nat.not_le] at hc
        obtain ⟨hj', _⟩ := hfull (hno r (List.mem_cons_self ..)) hc.1
        rw [Nat.min_eq_right hj', tornIndex, Nat.sub_self, pow_zero, Nat.div_one, Nat.mul_one, Nat.mod_one, Nat.add_zero]
        exact g2 hc.2
    obtain ⟨xs, hl, ht⟩ := ih k'' _ _ hv (torn_lt (Nat.min_le_right _ _) g3)
      (fun h => by rw [hsame (by omega), hkk (by omega)]) hbound
      (fun r' hr' => hno r' (List.mem_cons_of_mem _ hr')) h2
    refine ⟨x :: xs, by simp [hl], hlo, ?_, ht⟩
    by_cases hc : x < 2 ^ p.full_height - 1
    · rw [← hkk hc]; exact hpre
    · rw [runOutput, if_neg hc] at hpre ⊢
      exact hpre

theorem IndexTrace.spec {Q : Nat → CrashRecord → Prop} : ∀ (rs : List CrashRecord) (xs : List Nat) (lo : Nat),
    IndexTrace p Q lo rs xs →
    (∀ (i : Nat) r x, rs[i]? = some r → xs[i]? = some x → lo ≤ x ∧ Q x r) ∧
    (∀ (i j : Nat) r x y, i < j → rs[i]? = some r → xs[i]? = some x → xs[j]? = some y → x ≤ y ∧
      (r.out ≠ [] → x < 2 ^ p.full_height → x < y)) := by
  intro rs
  induction rs with
  | nil => intro xs lo _; exact ⟨fun i r x h => by simp at h, fun i j r x y _ h => by simp at h⟩
  | cons r rs ih =>
    intro xs lo h
    cases xs with
    | nil => exact absurd h (by simp [IndexTrace])
    | cons x xs =>
      obtain ⟨h1, h2, h3⟩ := h
      obtain ⟨a, b⟩ := ih xs _ h3
      have hlo : x ≤ (if r.out = [] ∨ 2 ^ p.full_height ≤ x then x else x + 1) := by split <;> omega
      -- every later index is at least the bound
      have hall : ∀ (i : Nat) y, xs[i]? = some y → (if r.out = [] ∨ 2 ^ p.full_height ≤ x then x else x + 1) ≤ y := by
        intro i y hy
        have hlen : ∀ (rs : List CrashRecord) (xs : List Nat) lo, IndexTrace p Q lo rs xs → rs.length = xs.length := by
          intro rs
          induction rs with
          | nil => intro xs lo h; cases xs with
            | nil => rfl
            | cons => exact absurd h (by simp [IndexTrace])
          | cons r rs ih => intro xs lo h; cases xs with
            | nil => exact absurd h (by simp [IndexTrace])
            | cons x xs => simp only [List.length_cons, ih xs _ h.2.2]
        have hi : i < rs.length := by
          rw [hlen _ _ _ h3]
          exact (List.getElem?_eq_some_iff.mp hy).1
        exact (a i rs[i] y (List.getElem?_eq_getElem hi) hy).1
      constructor
      · intro i r' x' hr hx
        cases i with
        | zero =>
          simp only [List.getElem?_cons_zero, Option.some.injEq] at hr hx
          subst hr hx
          exact ⟨h1, h2⟩
        | succ i =>
          rw [List.getElem?_cons_succ] at hr hx
          obtain ⟨c1, c2⟩ := a i r' x' hr hx
          exact ⟨by omega, c2⟩
      · intro i j r' x' y hij hr hx hy
        cases j with
        | zero => omega
        | succ j =>
          rw [List.getElem?_cons_succ] at hy
          cases i with
          | zero =>
            simp only [List.getElem?_cons_zero, Option.some.injEq] at hr hx
            subst hr hx
            have := hall j y hy
            refine ⟨by omega, fun h4 h5 => ?_⟩
            rw [if_neg (by rw [not_or, Nat.not_le]; exact ⟨h4, h5⟩)] at this
            omega
          | succ i =>
            rw [List.getElem?_cons_succ] at hr hx
            exact b i j r' x' y (by omega) hr hx hy

/-- **C55 (histories).**  Any number of runs of the signing tool one after the other on one key file, each killed at an
arbitrary moment (possibly in the middle of the write to the key file) or not at all.  If the signed messages fit into the
stdout buffer, then the runs have indices which never decrease and which increase after every run that has output
anything, and what a run has output is a prefix of the signature with its index (from the last index on, of bytes which do
not depend on the key).  So no one-time key is used in two outputs.  (For all sets except those of height 40.) -/
theorem C55_crash_history_partial {oidp : Nat} {pp : Params} (hpp : f.parse oidp = some pp) (hp : f.parse oid = some p)
    (hH : coreHash P p.func p.n = some H) (h40 : 2 ^ p.full_height < 256 ^ p.index_bytes)
    {junk : Nat → Bytes} (hj : Fresh junk) {pkb T : Bytes} (hpk : pkb.length = pp.pk_bytes) (k : Key) (hk : k.Valid p)
    (idx : Nat) (hidx : idx < 256 ^ p.index_bytes) (mayFlush : Nat → Prop) (l0 : Nat) (rs : List CrashRecord)
    (hno : ∀ r ∈ rs, ∀ n ≤ p.sig_bytes + r.msg.length, ¬ mayFlush n)
    (hr : CrashRuns (CrashRunSlow P f junk l0 mayFlush) (Rfc.toByte oidp 4 ++ pkb ++ k.sk p oid idx ++ T) rs) :
    ∃ xs : List Nat, xs.length = rs.length ∧
      (∀ (i : Nat) r x, rs[i]? = some r → xs[i]? = some x → idx ≤ x ∧
        (x < 2 ^ p.full_height - 1 → r.out <+: (suiteOf p H).sign k.skSeed k.skPrf k.root k.pubSeed x r.msg ++ r.msg) ∧
        (x = 2 ^ p.full_height - 1 → r.out <+: lastSig p H r.msg ++ r.msg) ∧
        (2 ^ p.full_height ≤ x → r.out <+: (junk (p.sig_bytes + r.msg.length)).take p.sig_bytes ++ r.msg)) ∧
      (∀ (i j : Nat) r x y, i < j → rs[i]? = some r → xs[i]? = some x → xs[j]? = some y → x ≤ y ∧
        (r.out ≠ [] → x < 2 ^ p.full_height → x < y)) := by
  obtain ⟨xs, hl, ht⟩ := crash_trace hpp hp hH h40 hj hpk k mayFlush l0 rs k idx idx hk hidx (fun _ => rfl) (Nat.le_refl _) hno hr
  obtain ⟨a, b⟩ := IndexTrace.spec rs xs idx ht
  refine ⟨xs, hl, ?_, b⟩
  intro i r x h1 h2
  obtain ⟨c1, c2⟩ := a i r x h1 h2
  have hpos : 0 < 2 ^ p.full_height := by positivity
  refine ⟨c1, fun h => ?_, fun h => ?_, fun h => ?_⟩
  · rwa [runOutput, if_pos h] at c2
  · rwa [runOutput, if_neg (by omega), if_pos h] at c2
  · rwa [runOutput, if_neg (by omega), if_neg (by omega)] at c2

/-! ### The hypotheses are met -/

/-- OID 1 (height 10), stored index 767: a crash moves it to the very last index, 1023; 255 signatures are lost. -/
example (P : Prims) (k : Key) (p : Params) (hp : Family.xmss.parse 1 = some p) (hh : p.full_height = 10)
    (hb : p.index_bytes = 4) (hk : k.Valid p) (pkb : Bytes)
    (hpk : pkb.length = p.pk_bytes) :
    CrashRunSlow P .xmss (fun k => List.replicate k 0) 0 (fun n => 4096 ≤ n) (Rfc.toByte 1 4 ++ pkb ++ k.sk p 1 767 ++ []) [7] []
      (Rfc.toByte 1 4 ++ pkb ++ k.sk p 1 1023 ++ []) :=
  C55_indices_can_be_lost (f := .xmss) (i := 1) hp hp fresh_zero hpk hk (by rw [hh]; decide) _ _ (by rw [hb]; decide) (by decide)
example : ∃ p, Family.xmss.parse 1 = some p ∧ p.full_height = 10 ∧ p.index_bytes = 4 ∧
    2 ^ p.full_height < 256 ^ p.index_bytes ∧ (Key.zero p).Valid p :=
  ⟨_, rfl, rfl, rfl, by decide, by constructor <;> simp [Key.zero]⟩
example : ∃ p, Family.xmssmt.parse 3 = some p ∧ p.full_height = 40 ∧ p.index_bytes = 5 := ⟨_, rfl, rfl, rfl⟩

end Xmss
