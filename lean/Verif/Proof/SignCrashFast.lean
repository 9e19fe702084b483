import Verif.Proof.SignCrash
import Verif.Props.FastDamaged
/-
Proofs for C79: the keys and buffers that a sign call of the fast implementation leaves when it is cut off.
-/
namespace Xmss.SignCrash

variable {f : Family} {p : Params} {H : Bytes → Bytes}

theorem wr_of_some {buf bs r : Bytes} {off : Nat} (h : wr buf off bs = some r) :
    off + bs.length ≤ buf.length ∧ r = buf.take off ++ bs ++ buf.drop (off + bs.length) := by
  have hl : off + bs.length ≤ buf.length := by
    by_contra hc
    simp [wr, hc] at h
  rw [wr_some hl] at h
  exact ⟨hl, (Option.some.inj h).symm⟩

/-- The rest of a call writes to the key the index and the traversal state. -/
theorem body_key {sk sm m : Bytes} {s : BdsState} {sigs : List Bytes} {idx : Nat} {o : FastOut}
    (h : fastXmssSignBody H p sk sm m s sigs idx = some o) :
    o.ret = 0 ∧ ∃ sk1, wr sk 0 (ullToBytes 4 (idx + 1)) = some sk1 ∧ ∃ b, wr sk1 (p.index_bytes + 4 * p.n) b = some o.sk := by
  simp only [fastXmssSignBody, Option.bind_eq_bind, Option.bind_eq_some_iff] at h
  obtain ⟨_, _, _, _, _, _, sk1, h1, _, _, _, _, h⟩ := h
  split at h
  · cases h
  · simp only [Option.bind_eq_some_iff] at h
    obtain ⟨_, _, _, _, _, _, _, _, _, _, s', _, _, _, sk2, h2, h⟩ := h
    obtain rfl := Option.some.inj h
    exact ⟨rfl, sk1, h1, _, h2⟩

theorem body_key_mt {sk sm m : Bytes} {states : List BdsState} {sigs : List Bytes} {idx : Nat} {o : FastOut}
    (h : fastXmssmtSignBody H p sk sm m states sigs idx = some o) :
    o.ret = 0 ∧ ∃ sk1, wr sk 0 (ullToBytes p.index_bytes (idx + 1)) = some sk1 ∧ ∃ b, wr sk1 (p.index_bytes + 4 * p.n) b = some o.sk := by
  unfold fastXmssmtSignBody at h
  obtain ⟨_, _, h⟩ := Option.bind_eq_some_iff.mp h
  obtain ⟨_, _, h⟩ := Option.bind_eq_some_iff.mp h
  obtain ⟨_, _, h⟩ := Option.bind_eq_some_iff.mp h
  obtain ⟨sk1, h1, h⟩ := Option.bind_eq_some_iff.mp h
  obtain ⟨_, _, h⟩ := Option.bind_eq_some_iff.mp h
  obtain ⟨_, _, h⟩ := Option.bind_eq_some_iff.mp h
  split at h
  · cases h
  · obtain ⟨_, _, h⟩ := Option.bind_eq_some_iff.mp h
    obtain ⟨_, _, h⟩ := Option.bind_eq_some_iff.mp h
    obtain ⟨_, _, h⟩ := Option.bind_eq_some_iff.mp h
    obtain ⟨_, _, h⟩ := Option.bind_eq_some_iff.mp h
    obtain ⟨_, _, h⟩ := Option.bind_eq_some_iff.mp h
    obtain ⟨_, _, h⟩ := Option.bind_eq_some_iff.mp h
    obtain ⟨_, _, h⟩ := Option.bind_eq_some_iff.mp h
    obtain ⟨_, _, h⟩ := Option.bind_eq_some_iff.mp h
    obtain ⟨_, _, h⟩ := Option.bind_eq_some_iff.mp h
    obtain ⟨_, _, h⟩ := Option.bind_eq_some_iff.mp h
    obtain ⟨sk2, h2, h⟩ := Option.bind_eq_some_iff.mp h
    obtain rfl := Option.some.inj h
    exact ⟨rfl, sk1, h1, _, h2⟩

theorem wr_front {a a' t r : Bytes} (h : a.length = t.length) (h' : a'.length = t.length) : wr (a ++ r) 0 t = wr (a' ++ r) 0 t := by
  rw [wr_some (by simp; omega), wr_some (by simp; omega), Nat.zero_add, List.drop_left' h, List.drop_left' h', List.take_zero, List.take_zero]

theorem wr_front_eq {a t r : Bytes} (h : a.length = t.length) : wr (a ++ r) 0 t = some (t ++ r) := by
  rw [wr_some (by simp; omega), Nat.zero_add, List.drop_left' h]; rfl

theorem rd_behind {a a' r : Bytes} (h : a.length = a'.length) {off n : Nat} (ho : a.length ≤ off) : rd (a ++ r) off n = rd (a' ++ r) off n := by
  unfold rd
  rw [List.length_append, List.length_append, List.drop_append, List.drop_append, List.drop_of_length_le (l := a) ho,
    List.drop_of_length_le (l := a') (h ▸ ho), h]

theorem body_index {a a' r sm m : Bytes} {s : BdsState} {sigs : List Bytes} {idx : Nat} (hib : p.index_bytes = 4)
    (h : a.length = p.index_bytes) (h' : a'.length = p.index_bytes) :
    fastXmssSignBody H p (a ++ r) sm m s sigs idx = fastXmssSignBody H p (a' ++ r) sm m s sigs idx := by
  have hh : a.length = a'.length := h.trans h'.symm
  have ht : (ullToBytes 4 (idx + 1)).length = p.index_bytes := by rw [ullToBytes_eq, toByte_length, hib]
  rw [fastXmssSignBody, fastXmssSignBody, wr_front (h.trans ht.symm) (h'.trans ht.symm), rd_behind (off := p.index_bytes) hh (by omega),
    rd_behind (off := p.index_bytes + p.n) hh (by omega), rd_behind (off := p.index_bytes + 3 * p.n) hh (by omega)]

theorem body_index_mt {a a' r sm m : Bytes} {states : List BdsState} {sigs : List Bytes} {idx : Nat}
    (h : a.length = p.index_bytes) (h' : a'.length = p.index_bytes) :
    fastXmssmtSignBody H p (a ++ r) sm m states sigs idx = fastXmssmtSignBody H p (a' ++ r) sm m states sigs idx := by
  have hh : a.length = a'.length := h.trans h'.symm
  have ht : (ullToBytes p.index_bytes (idx + 1)).length = p.index_bytes := by rw [ullToBytes_eq, toByte_length]
  rw [fastXmssmtSignBody, fastXmssmtSignBody, wr_front (h.trans ht.symm) (h'.trans ht.symm), rd_behind (off := p.index_bytes) hh (by omega),
    rd_behind (off := p.index_bytes + p.n) hh (by omega), rd_behind (off := p.index_bytes + 3 * p.n) hh (by omega)]

/-- The rest of the call leaves the stored index, the seeds and the root alone. -/
theorem rest_key (hib : f = .xmss → p.index_bytes = 4) {c : FastCall} {x : Nat} {r : Bytes} {o : FastOut}
    (hsk : c.sk = Rfc.toByte (x + 1) p.index_bytes ++ r) (h : fastSignRest f H p c x = some o) :
    o.ret = 0 ∧ ∃ r', r'.length = r.length ∧ r'.take (4 * p.n) = r.take (4 * p.n) ∧ o.sk = Rfc.toByte (x + 1) p.index_bytes ++ r' := by
  have fin : ∀ {sk1 b : Bytes}, wr c.sk 0 (Rfc.toByte (x + 1) p.index_bytes) = some sk1 → wr sk1 (p.index_bytes + 4 * p.n) b = some o.sk →
      ∃ r', r'.length = r.length ∧ r'.take (4 * p.n) = r.take (4 * p.n) ∧ o.sk = Rfc.toByte (x + 1) p.index_bytes ++ r' := by
    intro sk1 b h1 h2
    rw [hsk, wr_front_eq rfl] at h1
    obtain rfl := Option.some.inj h1
    obtain ⟨h3, h4⟩ := wr_of_some h2
    have hl : p.index_bytes + 4 * p.n + b.length ≤ p.index_bytes + r.length := by simpa [toByte_length] using h3
    refine ⟨r.take (4 * p.n) ++ b ++ r.drop (4 * p.n + b.length), ?_, ?_, ?_⟩
    · simp; omega
    · rw [List.append_assoc, List.take_left' (by simp; omega)]
    · rw [h4, List.take_append, List.drop_append, toByte_length, List.take_of_length_le (by rw [toByte_length]; omega),
        List.drop_of_length_le (by rw [toByte_length]; omega)]
      simp only [List.nil_append, List.append_assoc]
      rw [show p.index_bytes + 4 * p.n - p.index_bytes = 4 * p.n by omega,
        show p.index_bytes + 4 * p.n + b.length - p.index_bytes = 4 * p.n + b.length by omega]
  cases f with
  | xmss =>
    simp only [fastSignRest, Option.bind_eq_bind, Option.bind_eq_some_iff] at h
    obtain ⟨s, _, h⟩ := h
    obtain ⟨h1, sk1, h2, b, h3⟩ := body_key h
    rw [ullToBytes_eq, ← hib rfl] at h2
    exact ⟨h1, fin h2 h3⟩
  | xmssmt =>
    obtain ⟨h1, sk1, h2, b, h3⟩ := body_key_mt h
    rw [ullToBytes_eq] at h2
    exact ⟨h1, fin h2 h3⟩

/-- What holds while a call of the fast implementation runs. -/
def FInv (p : Params) (x : Nat) (rest sm0 : Bytes) (c : FastCall) : Prop :=
  match c.pc with
  | .start => c.sk = Rfc.toByte x p.index_bytes ++ rest ∧ c.sm = sm0
  | .wiping idx j => idx = x ∧ 2 ^ p.full_height - 1 ≤ x ∧ j ≤ p.sk_bytes ∧ c.sm = sm0 ∧
      c.sk = (wipedKey p).take j ++ (Rfc.toByte x p.index_bytes ++ rest).drop j
  | .writing idx j => idx = x ∧ x < 2 ^ p.full_height ∧ c.sm = sm0 ∧ j ≤ p.index_bytes ∧
      c.sk = (Rfc.toByte (x + 1) p.index_bytes).take j ++ (Rfc.toByte (baseIdx p x) p.index_bytes).drop j ++ baseRest p x rest
  | .signing idx => idx = x ∧ x < 2 ^ p.full_height ∧ c.sm = sm0 ∧ c.sk = Rfc.toByte (x + 1) p.index_bytes ++ baseRest p x rest
  | .done r => (r = 0 ∧ x < 2 ^ p.full_height ∧ ∃ r', r'.length = rest.length ∧ r'.take (4 * p.n) = (baseRest p x rest).take (4 * p.n) ∧
        c.sk = Rfc.toByte (x + 1) p.index_bytes ++ r') ∨
      (r = -2 ∧ 2 ^ p.full_height ≤ x ∧ c.sm = sm0 ∧ c.sk = wipedKey p)

theorem finv_step (h8 : p.index_bytes ≤ 8) (hib : f = .xmss → p.index_bytes = 4) {x : Nat} {rest sm0 : Bytes} (hx : x < 256 ^ p.index_bytes)
    (hr : p.index_bytes + rest.length = p.sk_bytes) {c c' : FastCall} (hi : FInv p x rest sm0 c)
    (h : fastCallStep f H p c = some c') : FInv p x rest sm0 c' := by
  obtain ⟨pc, sk, sm, l, m, st, sg, lv⟩ := c
  have hpos : 0 < 2 ^ p.full_height := Nat.two_pow_pos _
  have hwl : (wipedKey p).length = p.sk_bytes := wipedKey_length (by omega)
  have hol : (Rfc.toByte x p.index_bytes ++ rest).length = p.sk_bytes := by rw [List.length_append, toByte_length, hr]
  cases pc with
  | start =>
    obtain ⟨h1, h2⟩ := hi
    simp only at h1 h2
    subst h1 h2
    simp only [fastCallStep] at h
    split at h
    · cases h
    · simp only [Option.bind_eq_bind, Option.bind_eq_some_iff] at h
      obtain ⟨ds, _, ib, h3, idx, h4, h⟩ := h
      have e3 : ib = Rfc.toByte x p.index_bytes := by
        have := rd_append [] (Rfc.toByte x p.index_bytes) rest (off := 0) (len := p.index_bytes) rfl (toByte_length _ _).symm
        rw [List.nil_append] at this
        rw [this] at h3
        exact (Option.some.inj h3).symm
      rw [e3, bytesToUll_eq (by rw [toByte_length]; exact h8), toNat_toByte, Nat.mod_eq_of_lt hx] at h4
      obtain rfl := Option.some.inj h4
      split at h
      · cases h
      · obtain rfl := Option.some.inj h
        by_cases hl : 2 ^ p.full_height - 1 ≤ x
        · simp only [if_pos hl]
          exact ⟨rfl, hl, Nat.zero_le _, rfl, by simp⟩
        · simp only [if_neg hl]
          refine ⟨rfl, by omega, rfl, Nat.zero_le _, ?_⟩
          rw [baseIdx, if_pos (by omega), baseRest, if_pos (by omega)]
          simp
  | wiping idx j =>
    obtain ⟨rfl, h1, h2, h3, hsk⟩ := hi
    simp only [fastCallStep] at h hsk
    split at h
    · rename_i hlt
      split at h
      · obtain rfl := Option.some.inj h
        refine ⟨rfl, h1, hlt, h3, ?_⟩
        show sk.set j _ = _
        rw [hsk]
        exact set_up (by rw [hwl, hol]) (wipedKey_get hlt)
      · cases h
    · have ej : j = p.sk_bytes := by omega
      have hsk' : sk = wipedKey p := by
        rw [hsk, ej, List.take_of_length_le (by omega), List.drop_of_length_le (by omega), List.append_nil]
      split at h
      · obtain rfl := Option.some.inj h
        exact .inr ⟨rfl, by omega, h3, hsk'⟩
      · obtain rfl := Option.some.inj h
        refine ⟨rfl, by omega, h3, Nat.zero_le _, ?_⟩
        show sk = _
        rw [baseIdx, if_neg (by omega), baseRest, if_neg (by omega), hsk', wipedKey_eq]
        simp
  | writing idx j =>
    obtain ⟨rfl, h1, h2, h3, hsk⟩ := hi
    simp only at hsk h2
    simp only [fastCallStep] at h
    split at h
    · rename_i hlt
      split at h
      · obtain rfl := Option.some.inj h
        refine ⟨rfl, h1, h2, hlt, ?_⟩
        show sk.set j _ = _
        have hl : j < ((Rfc.toByte (idx + 1) p.index_bytes).take j ++ (Rfc.toByte (baseIdx p idx) p.index_bytes).drop j).length := by
          simp [toByte_length]; omega
        rw [hsk, List.set_append_left _ _ hl, set_up (by simp [toByte_length]) (SignThreads.toByte_get (idx + 1) p.index_bytes j (by omega))]
      · cases h
    · rename_i hlt
      obtain rfl := Option.some.inj h
      refine ⟨rfl, h1, h2, ?_⟩
      show sk = _
      rw [hsk, List.take_of_length_le (by rw [toByte_length]; omega), List.drop_of_length_le (by rw [toByte_length]; omega), List.append_nil]
  | signing idx =>
    obtain ⟨rfl, h1, h2, hsk⟩ := hi
    simp only [fastCallStep, Option.bind_eq_bind, Option.bind_eq_some_iff] at h
    obtain ⟨o, h3, h⟩ := h
    obtain ⟨h4, r', h5, h6, h7⟩ := rest_key hib hsk h3
    obtain rfl := Option.some.inj h
    exact .inl ⟨h4, h1, r', h5.trans (baseRest_length hr), h6, h7⟩
  | done r =>
    simp only [fastCallStep] at h
    obtain rfl := Option.some.inj h
    exact hi

theorem finv_steps (h8 : p.index_bytes ≤ 8) (hib : f = .xmss → p.index_bytes = 4) {x : Nat} {rest sm0 : Bytes} (hx : x < 256 ^ p.index_bytes)
    (hr : p.index_bytes + rest.length = p.sk_bytes) : ∀ (j : Nat) {c c' : FastCall}, FInv p x rest sm0 c →
    fastCallSteps f H p j c = some c' → FInv p x rest sm0 c' := by
  intro j
  induction j with
  | zero => intro w w' hi h; obtain rfl := Option.some.inj h; exact hi
  | succ j ih =>
    intro w w' hi h
    obtain ⟨w1, h1, h2⟩ := Option.bind_eq_some_iff.mp h
    exact ih (finv_step h8 hib hx hr hi h1) h2

/-- Every call of the fast implementation, cut off anywhere: the stored index never goes back, and it has advanced when anything of a
signature has been written. -/
theorem fast_event (h8 : p.index_bytes ≤ 8) (hib : f = .xmss → p.index_bytes = 4) (h40 : 2 ^ p.full_height < 256 ^ p.index_bytes)
    (hskb : p.index_bytes + 4 * p.n ≤ p.sk_bytes) {e : SignEvent} (he : FastEvent f H p e) (hl : e.before.length = p.sk_bytes) :
    EventOk p e := by
  have hpos : 0 < 2 ^ p.full_height := Nat.two_pow_pos _
  obtain ⟨x, rest, hx, e1, hr, hst⟩ := key_split (p := p) (sk := e.before) (by omega)
  rw [hl] at hr
  have start : ∀ sm l0 m, FInv p x rest sm (fastCallStart (Rfc.toByte x p.index_bytes ++ rest) sm l0 m) := fun sm l0 m => ⟨rfl, rfl⟩
  have fin : ∀ {sk' : Bytes} {sm0 m sm : Bytes} {ret : Option Int}, KeyOk p (Rfc.toByte x p.index_bytes ++ rest) sk' →
      (sm = sm0 ∧ ret ≠ some 0 ∨ (x < 2 ^ p.full_height ∧ storedIndex p sk' = x + 1)) →
      EventOk p ⟨Rfc.toByte x p.index_bytes ++ rest, sm0, m, sk', sm, ret⟩ := by
    intro sk' sm0 m sm ret hk hrel
    refine ⟨hk.len, hk.le, hk.mat, ?_⟩
    rintro hR
    rcases hrel with ⟨h1, h2⟩ | ⟨h1, h2⟩
    · rcases hR with h | h
      · exact absurd (by simp only [h1]) h
      · exact absurd h h2
    · show storedIndex p _ < storedIndex p sk' ∧ storedIndex p _ < _
      rw [stored_eq x hx, h2]
      exact ⟨by omega, h1⟩
  cases he with
  | @between sk sm m l0 j c h =>
    simp only at e1 hst
    subst e1
    have hi := finv_steps h8 hib hx hr j (start sm l0 m) h
    obtain ⟨pc, sk', sm', l', m', st, sg, lv⟩ := c
    cases pc with
    | start => obtain ⟨h1, h2⟩ := hi; simp only at h1; subst h1; exact fin (KeyOk.refl _) (.inl ⟨h2, by simp [FastPc.ret]⟩)
    | wiping idx j =>
      obtain ⟨rfl, h1, h2, h3, hsk⟩ := hi
      exact fin (ok_wiping h40 hx hr h2 hsk) (.inl ⟨h3, by simp [FastPc.ret]⟩)
    | writing idx j =>
      obtain ⟨rfl, h1, h2, h3, hsk⟩ := hi
      refine fin ?_ (.inl ⟨h2, by simp [FastPc.ret]⟩)
      have := ok_up (j := j) h40 h1 hr h3
      rw [← hsk] at this
      exact this
    | signing idx =>
      obtain ⟨rfl, h1, h2, hsk⟩ := hi
      simp only at hsk
      subst hsk
      exact fin (ok_stored h40 h1 (baseRest_length hr) rfl) (.inl ⟨h2, by simp [FastPc.ret]⟩)
    | done r =>
      rcases hi with ⟨rfl, h1, r', h2, h3, hsk⟩ | ⟨rfl, h1, h2, hsk⟩
      · simp only at hsk
        subst hsk
        exact fin (ok_stored h40 h1 h2 h3) (.inr ⟨h1, stored_eq _ (by omega) _⟩)
      · refine fin ?_ (.inl ⟨h2, by simp [FastPc.ret]⟩)
        simp only at hsk
        have hwl : (wipedKey p).length = p.sk_bytes := wipedKey_length (by omega)
        exact ok_wiping (j := p.sk_bytes) h40 hx hr (Nat.le_refl _) (by
          rw [List.take_of_length_le (by omega), List.drop_of_length_le (by rw [List.length_append, toByte_length]; omega), List.append_nil, hsk])
  | @inside sk sm m l0 j c idx ext' sm' h hpc _ hext =>
    simp only at e1 hst
    subst e1
    have hi := finv_steps h8 hib hx hr j (start sm l0 m) h
    obtain ⟨pc, sk', sm1, l', m', st, sg, lv⟩ := c
    simp only at hpc hext ⊢
    subst hpc
    obtain ⟨rfl, h1, h2, hsk⟩ := hi
    simp only at hsk
    subst hsk
    rw [List.length_append, toByte_length, baseRest_length hr] at hext
    have hle : 4 * p.n ≤ (baseRest p idx rest).length := by rw [baseRest_length hr]; omega
    rw [List.take_append, toByte_length, List.take_of_length_le (by rw [toByte_length]; omega), Nat.add_sub_cancel_left, List.append_assoc]
    refine fin (ok_stored h40 h1 ?_ ?_) (.inr ⟨h1, stored_eq _ (by omega) _⟩)
    · rw [List.length_append, List.length_take]; omega
    · rw [List.take_left' (by rw [List.length_take]; omega)]

end Xmss.SignCrash

/-! ### The machine and the function -/
namespace Xmss.SignCrash

variable {f : Family} {p : Params} {H : Bytes → Bytes}

/-- `xmss_core_sign` or `xmssmt_core_sign` of the fast implementation. -/
def coreFast (f : Family) (H : Bytes → Bytes) (p : Params) (sk sm : Bytes) (l0 : Nat) (m : Bytes) : Option FastOut :=
  match f with
  | .xmss => fastXmssSign H p sk sm l0 m
  | .xmssmt => fastXmssmtSign H p sk sm l0 m

/-- What the call will end with. -/
def res (f : Family) (H : Bytes → Bytes) (p : Params) (c : FastCall) : Option FastOut :=
  match c.pc with
  | .start => coreFast f H p c.sk c.sm c.smlen c.m
  | .wiping idx _ =>
    if 2 ^ p.full_height - 1 < idx then some { ret := -2, sk := wipedKey p, sm := c.sm, smlen := c.smlen, leaves := c.leaves }
    else fastSignRest f H p { c with sk := wipedKey p, states := c.states.map BdsState.wipe,
                                     sigs := c.sigs.map fun x => List.replicate x.length 0 } idx
  | .writing idx _ => fastSignRest f H p { c with sk := Rfc.toByte (idx + 1) p.index_bytes ++ c.sk.drop p.index_bytes } idx
  | .signing idx => fastSignRest f H p c idx
  | .done r => some { ret := r, sk := c.sk, sm := c.sm, smlen := c.smlen, leaves := c.leaves }

/-- Sizes while a call runs. -/
def LInv (p : Params) (c : FastCall) : Prop :=
  c.sk.length = p.sk_bytes ∧
  match c.pc with
  | .start => c.leaves = 0
  | .wiping _ j => j ≤ p.sk_bytes ∧ c.sk.take j = (wipedKey p).take j
  | .writing _ j => j ≤ p.index_bytes
  | _ => True

/-- Number of steps left, at most. -/
def fuelF (p : Params) : FastPc → Nat
  | .start => p.sk_bytes + p.index_bytes + 4
  | .wiping _ j => (p.sk_bytes - j) + p.index_bytes + 3
  | .writing _ j => (p.index_bytes - j) + 2
  | .signing _ => 1
  | .done _ => 0

theorem rest_index (hib : f = .xmss → p.index_bytes = 4) {c : FastCall} {a a' r : Bytes} {idx : Nat} (h : a.length = p.index_bytes)
    (h' : a'.length = p.index_bytes) : fastSignRest f H p { c with sk := a ++ r } idx = fastSignRest f H p { c with sk := a' ++ r } idx := by
  cases f with
  | xmss =>
    simp only [fastSignRest]
    cases c.states[0]? with
    | none => rfl
    | some s => exact body_index (hib rfl) h h'
  | xmssmt => exact body_index_mt h h'

theorem rest_length (hib : f = .xmss → p.index_bytes = 4) {c : FastCall} {idx : Nat} {o : FastOut} (h : fastSignRest f H p c idx = some o) :
    o.sk.length = c.sk.length := by
  cases f with
  | xmss =>
    simp only [fastSignRest, Option.bind_eq_bind, Option.bind_eq_some_iff] at h
    obtain ⟨s, _, h⟩ := h
    obtain ⟨_, sk1, h2, b, h3⟩ := body_key h
    rw [wr_length h3, wr_length h2]
  | xmssmt =>
    obtain ⟨_, sk1, h2, b, h3⟩ := body_key_mt h
    rw [wr_length h3, wr_length h2]


theorem wipe_eq {sk : Bytes} (h : sk.length = p.sk_bytes) (hle : p.index_bytes ≤ p.sk_bytes) : wipeKey p sk = some (wipedKey p) := by
  have := wipeKey_eq (p := p) (sk.take p.index_bytes) (sk.drop p.index_bytes) (by simp; omega) (l := p.sk_bytes - p.index_bytes)
    (by simp; omega) (by omega)
  rw [List.take_append_drop] at this
  exact this

/-- The first step: what the call will end with does not change. -/
theorem start_res (hib : f = .xmss → p.index_bytes = 4) (h8 : p.index_bytes ≤ 8) (hsk : p.sk_bytes = fastSkBytes p) (hd : f = .xmss → p.d = 1)
    {c : FastCall} (hpc : c.pc = .start) (hl : c.sk.length = p.sk_bytes) (hlv : c.leaves = 0) :
    (fastCallStep f H p c).bind (res f H p) = res f H p c := by
  obtain ⟨pc, sk, sm, l, m, st, sg, lv⟩ := c
  simp only at hpc hl hlv
  subst hpc hlv
  have hpos : 0 < 2 ^ p.full_height := Nat.two_pow_pos _
  have hle : p.index_bytes ≤ p.sk_bytes := by rw [hsk, fastSkBytes]; omega
  obtain ⟨states, sigs, hds, sh, -, -⟩ := deserialize_any (p := p) sk (by omega)
  have hrd : rd sk 0 p.index_bytes = some (sk.take p.index_bytes) := by rw [rd_some (by omega), List.drop_zero]
  have hb : bytesToUll (sk.take p.index_bytes) = some (Rfc.toNat (sk.take p.index_bytes)) :=
    bytesToUll_eq (by simp; omega)
  generalize hix : Rfc.toNat (sk.take p.index_bytes) = idx at hb
  have hsplit : Rfc.toByte idx p.index_bytes ++ sk.drop p.index_bytes = sk := by
    have hl' : (sk.take p.index_bytes).length = p.index_bytes := by simp; omega
    have := toByte_toNat (sk.take p.index_bytes)
    rw [hl', hix] at this
    rw [this, List.take_append_drop]
  have hre : ∀ c' : FastCall, c'.sk = sk →
      fastSignRest f H p { c' with sk := Rfc.toByte (idx + 1) p.index_bytes ++ sk.drop p.index_bytes } idx = fastSignRest f H p c' idx := by
    intro c' hc'
    rw [rest_index hib (toByte_length (idx + 1) p.index_bytes) (toByte_length idx p.index_bytes), hsplit, ← hc']
  simp only [fastCallStep, res, coreFast]
  cases f with
  | xmss =>
    have h4 := hib rfl
    obtain ⟨s, rfl⟩ : ∃ s, states = [s] := by
      have := sh.states_len; rw [hd rfl] at this
      exact List.length_eq_one_iff.mp this
    rw [fastXmssSign]
    by_cases h1 : 31 ≤ p.tree_height
    · rw [if_pos h1, if_pos h1]; rfl
    · rw [if_neg h1, if_neg h1, hds, ← h4, hrd]
      simp only [Option.bind_eq_bind, Option.bind_some, List.getElem?_cons_zero, hb]
      by_cases h2 : 64 ≤ p.full_height
      · rw [if_pos h2, if_pos h2]; rfl
      · rw [if_neg h2, if_neg h2]
        by_cases h3 : 2 ^ p.full_height - 1 ≤ idx
        · rw [if_pos h3, wipe_eq hl hle]
          simp only [Option.bind_some, if_pos h3, res]
          by_cases h5 : 2 ^ p.full_height - 1 < idx
          · rw [if_pos h5, if_pos (.inl h5)]
          · rw [if_neg h5, if_neg (by omega)]
            rfl
        · rw [if_neg h3]
          simp only [Option.bind_some, if_neg h3, res]
          exact (hre ⟨.writing idx 0, sk, sm, l, m, [s], sigs, 0⟩ rfl).trans rfl
  | xmssmt =>
    rw [fastXmssmtSign]
    by_cases h1 : 31 ≤ p.tree_height
    · rw [if_pos h1, if_pos h1]; rfl
    · rw [if_neg h1, if_neg h1, hds, hrd]
      simp only [Option.bind_eq_bind, Option.bind_some, hb]
      by_cases h2 : 64 ≤ p.full_height
      · rw [if_pos h2, if_pos h2]; rfl
      · rw [if_neg h2, if_neg h2]
        by_cases h3 : 2 ^ p.full_height - 1 ≤ idx
        · rw [if_pos h3, wipe_eq hl hle]
          simp only [Option.bind_some, if_pos h3, res]
          by_cases h5 : 2 ^ p.full_height - 1 < idx
          · rw [if_pos h5, if_pos (.inl h5)]
          · rw [if_neg h5, if_neg (by omega)]
            rfl
        · rw [if_neg h3]
          simp only [Option.bind_some, if_neg h3, res]
          exact (hre ⟨.writing idx 0, sk, sm, l, m, states, sigs, 0⟩ rfl).trans rfl

/-- Every step: sizes are kept, and what the call will end with does not change. -/
theorem step_res (hib : f = .xmss → p.index_bytes = 4) (h8 : p.index_bytes ≤ 8) (hsk : p.sk_bytes = fastSkBytes p) (hd : f = .xmss → p.d = 1)
    {c : FastCall} (hl : LInv p c) :
    (fastCallStep f H p c).bind (res f H p) = res f H p c ∧
      ∀ c', fastCallStep f H p c = some c' → LInv p c' ∧ fuelF p c'.pc ≤ fuelF p c.pc - 1 := by
  have hle : p.index_bytes ≤ p.sk_bytes := by rw [hsk, fastSkBytes]; omega
  obtain ⟨pc, sk, sm, l, m, st, sg, lv⟩ := c
  cases pc with
  | start =>
    refine ⟨start_res hib h8 hsk hd rfl hl.1 hl.2, fun c' h => ?_⟩
    simp only [fastCallStep] at h
    split at h
    · cases h
    · simp only [Option.bind_eq_bind, Option.bind_eq_some_iff] at h
      obtain ⟨ds, _, ib, _, idx, _, h⟩ := h
      split at h
      · cases h
      · obtain rfl := Option.some.inj h
        by_cases h3 : 2 ^ p.full_height - 1 ≤ idx
        · simp only [if_pos h3]
          exact ⟨⟨hl.1, Nat.zero_le _, rfl⟩, by simp [fuelF]⟩
        · simp only [if_neg h3]
          exact ⟨⟨hl.1, Nat.zero_le _⟩, by simp [fuelF]; omega⟩
  | wiping idx j =>
    obtain ⟨h1, h2, h3⟩ := hl
    simp only at h1 h2 h3
    simp only [fastCallStep]
    by_cases hj : j < p.sk_bytes
    · rw [if_pos hj, if_pos (by omega)]
      refine ⟨rfl, fun c' h => ?_⟩
      obtain rfl := Option.some.inj h
      refine ⟨⟨by simpa using h1, hj, ?_⟩, by simp [fuelF]; omega⟩
      show (sk.set j _).take (j + 1) = _
      rw [List.take_add_one, List.take_add_one, List.take_set_of_le (Nat.le_refl _), h3, wipedKey_get hj, List.getElem?_set_self (by omega)]
    · rw [if_neg hj]
      have hj' : j = p.sk_bytes := by omega
      have hw : sk = wipedKey p := by
        have := wipedKey_length hle
        rw [hj', List.take_of_length_le (by omega), List.take_of_length_le (by omega)] at h3
        exact h3
      by_cases h4 : 2 ^ p.full_height - 1 < idx
      · rw [if_pos h4]
        refine ⟨?_, fun c' h => ?_⟩
        · simp only [Option.bind_some, res]; rw [if_pos h4, hw]
        · obtain rfl := Option.some.inj h
          exact ⟨⟨h1, trivial⟩, by simp [fuelF]⟩
      · rw [if_neg h4]
        refine ⟨?_, fun c' h => ?_⟩
        · simp only [Option.bind_some, res]
          rw [if_neg h4, hw, wipedKey_eq, List.drop_left' (toByte_length _ _)]
          exact rest_index hib (c := ⟨.writing idx 0, sk, sm, l, m, _, _, lv⟩) (toByte_length _ _) (toByte_length _ _)
        · obtain rfl := Option.some.inj h
          exact ⟨⟨h1, Nat.zero_le _⟩, by simp [fuelF]⟩
  | writing idx j =>
    obtain ⟨h1, h2⟩ := hl
    simp only at h1 h2
    simp only [fastCallStep]
    by_cases hj : j < p.index_bytes
    · rw [if_pos hj, if_pos (by omega)]
      refine ⟨?_, fun c' h => ?_⟩
      · simp only [Option.bind_some, res]
        rw [List.drop_set_of_lt hj]
        cases f <;> rfl
      · obtain rfl := Option.some.inj h
        exact ⟨⟨by simpa using h1, hj⟩, by simp [fuelF]; omega⟩
    · rw [if_neg hj]
      refine ⟨?_, fun c' h => ?_⟩
      · simp only [Option.bind_some, res]
        have := rest_index (H := H) hib (c := ⟨.signing idx, sk, sm, l, m, st, sg, lv⟩) (idx := idx) (a := Rfc.toByte (idx + 1) p.index_bytes)
          (a' := sk.take p.index_bytes) (r := sk.drop p.index_bytes) (toByte_length _ _) (by simp; omega)
        rw [List.take_append_drop] at this
        exact this.symm
      · obtain rfl := Option.some.inj h
        exact ⟨⟨h1, trivial⟩, by simp [fuelF]⟩
  | signing idx =>
    simp only [fastCallStep, res]
    cases hr : fastSignRest f H p ⟨.signing idx, sk, sm, l, m, st, sg, lv⟩ idx with
    | none => exact ⟨rfl, fun c' h => by cases h⟩
    | some o =>
      refine ⟨rfl, fun c' h => ?_⟩
      obtain rfl := Option.some.inj h
      exact ⟨⟨(rest_length hib hr).trans hl.1, trivial⟩, by simp [fuelF]⟩
  | done r =>
    refine ⟨rfl, fun c' h => ?_⟩
    obtain rfl := Option.some.inj h
    exact ⟨hl, by simp [fuelF]⟩

/-- Enough steps: what the function returns. -/
theorem steps_res (hib : f = .xmss → p.index_bytes = 4) (h8 : p.index_bytes ≤ 8) (hsk : p.sk_bytes = fastSkBytes p) (hd : f = .xmss → p.d = 1) :
    ∀ (N : Nat) (c : FastCall), LInv p c → fuelF p c.pc ≤ N →
      (fastCallSteps f H p N c = none ∧ res f H p c = none) ∨
      ∃ c' o, fastCallSteps f H p N c = some c' ∧ res f H p c = some o ∧ c'.pc = .done o.ret ∧ c'.sk = o.sk ∧ c'.sm = o.sm ∧
        c'.smlen = o.smlen ∧ c'.leaves = o.leaves := by
  intro N
  induction N with
  | zero =>
    intro c hl hf
    obtain ⟨pc, sk, sm, l, m, st, sg, lv⟩ := c
    cases pc <;> simp [fuelF] at hf
    exact .inr ⟨_, _, rfl, rfl, rfl, rfl, rfl, rfl, rfl⟩
  | succ N ih =>
    intro c hl hf
    obtain ⟨h1, h2⟩ := step_res (H := H) hib h8 hsk hd hl
    cases hs : fastCallStep f H p c with
    | none =>
      rw [hs] at h1
      exact .inl ⟨by rw [fastCallSteps, hs]; rfl, h1.symm⟩
    | some c1 =>
      rw [hs] at h1
      obtain ⟨h3, h4⟩ := h2 c1 hs
      have e : fastCallSteps f H p (N + 1) c = fastCallSteps f H p N c1 := by rw [fastCallSteps, hs]; rfl
      rw [e, ← h1]
      exact ih c1 h3 (by omega)

end Xmss.SignCrash
