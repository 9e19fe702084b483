import Verif.Proof.LowHash
import Verif.Proof.Good
import Verif.Proof.Wots
import Verif.Proof.FastState
/-
Model/Low refines the first model: wots.c.
-/
namespace Xmss.Low

theorem len_mul_lt {p : Params} (g : p.Good) : p.wots_len * p.n < 2 ^ 32 := by
  have h1 := g.sig_eq; have h2 := g.sig_lt; have h3 := g.d_pos; have h4 := g.sig_wots
  have : p.wots_sig_bytes ≤ p.d * p.wots_sig_bytes := Nat.le_mul_of_pos_left _ h3
  omega

theorem two_n_le_len {p : Params} (g : p.Good) : 2 * p.n ≤ p.wots_len := by
  have h1 := g.len1_mul; have h2 := g.len_eq
  rcases g.logw_mem with h | h <;> rw [h] at h1 <;> omega

theorem fits_of_good {p : Params} (g : p.Good) : Fits p := by
  refine ⟨g.n_pos, ?_, g.pad_le⟩
  have h1 := len_mul_lt g
  have h2 := two_n_le_len g
  by_contra h
  have h3 : 2 ^ 16 ≤ p.n := by omega
  have : 2 * 2 ^ 16 * 2 ^ 16 ≤ p.wots_len * p.n := Nat.mul_le_mul (by omega) h3
  omega

theorem csum_bound {p : Params} (g : p.Good) : p.wots_len1 * (p.wots_w - 1) < 2 ^ 23 := by
  have h1 := g.len1_mul; have h2 := g.w_eq; have h3 := (fits_of_good g).n_lt
  rcases g.logw_mem with e | e <;> rw [e] at h1 h2 <;> rw [h2] <;> omega

theorem len2_le {p : Params} (g : p.Good) : p.wots_len2 ≤ p.wots_len1 * (p.wots_w - 1) + 1 := by
  rw [g.rfc_len2]
  show Nat.log2 _ / _ + 1 ≤ _
  have : (suiteOf p id).len1 = p.wots_len1 := g.rfc_len1.symm
  rw [this]
  have h8 : Nat.log2 (p.wots_len1 * (p.wots_w - 1)) ≤ p.wots_len1 * (p.wots_w - 1) := Nat.log2_le_self _
  have h9 := Nat.div_le_self (Nat.log2 (p.wots_len1 * ((suiteOf p id).w - 1))) (suiteOf p id).lgw
  exact Nat.succ_le_succ (le_trans h9 h8)

theorem len_lt {p : Params} (g : p.Good) : p.wots_len < 2 ^ 31 := by
  have h1 := csum_bound g; have h2 := len2_le g; have h3 := g.len_eq; have h4 := (fits_of_good g).n_lt
  have h5 := g.len1_mul
  rcases g.logw_mem with e | e <;> rw [e] at h5 <;> omega

/-! ### Digits -/

section digits
variable {p : Params}

/-- `int` array with the given contents. -/
def ints (l : List Nat) : IArr := l.map fun (v : Nat) => some (v : Int)

theorem ints_length (l : List Nat) : (ints l).length = l.length := by simp [ints]

theorem iset_append {pre rest : IArr} {i : Nat} {v : Int} (h : pre.length = i) (hr : rest ≠ []) :
    iset (pre ++ rest) i v = some (pre ++ [some v] ++ rest.drop 1) := by
  cases rest with
  | nil => exact absurd rfl hr
  | cons r rest =>
    unfold iset
    rw [if_pos (by simp; omega)]
    subst h
    simp

theorem iget_append {pre rest : IArr} {i : Nat} {v : Int} (h : pre.length = i) :
    iget (pre ++ some v :: rest) i = some v := by
  unfold iget
  rw [List.getElem?_append_right (by omega), h, Nat.sub_self]
  rfl

theorem load_byte {m : Mem} {q : Ptr} {input : Bytes} (h : load m q input.length = some input) {i : Nat} (hi : i < input.length) :
    load m (q + i) 1 = some [input.getD i 0] := by
  rw [load_sub' h i 1 (by omega)]
  congr 1
  rw [List.getD_eq_getElem _ _ hi, List.drop_eq_getElem_cons hi]
  rfl

theorem baseWLoop_of (hl : p.wots_log_w = 2 ∨ p.wots_log_w = 4) (hw : p.wots_w = 2 ^ p.wots_log_w) {m : Mem} {inp : Ptr}
    {input : Bytes} (h : load m inp input.length = some input) {base : Nat} : ∀ (k i o total bits : Nat) (tot : Option UInt8)
    (pre rest : IArr), pre.length = base + o → k ≤ rest.length → (bits = 0 ∨ tot = some (UInt8.ofNat total) ∧ total < 256) →
    p.wots_log_w ∣ bits → bits ≤ 8 → i ≤ input.length → k * p.wots_log_w ≤ 8 * (input.length - i) + bits →
    baseWLoop p m inp base k i o tot (bits : Int) (pre ++ rest) =
      some (pre ++ ints (Xmss.baseWLoop p input k i total bits) ++ rest.drop k) := by
  intro k
  induction k with
  | zero => intro i o total bits tot pre rest _ _ _ _ _ _ _; simp [baseWLoop, Xmss.baseWLoop, ints]
  | succ k ih =>
    intro i o total bits tot pre rest hpre hrest ht hd hb hi hk
    have hr0 : rest ≠ [] := by intro e; rw [e] at hrest; simp at hrest
    have hw1 : usub p.wots_w 1 = p.wots_w - 1 := by
      apply usub_eq
      · rw [hw]; exact Nat.one_le_two_pow
      · rw [hw]; rcases hl with e | e <;> rw [e] <;> decide
    -- the state after the possible refill
    obtain ⟨i', t, b', he1, he2, hb', hdb, hi', hk', hle⟩ : ∃ (i' : Nat) (t : UInt8) (b' : Nat),
        (if (bits : Int) = 0 then (load m (inp + i) 1).bind fun x => some (i + 1, some (x.headD 0), (bits : Int) + 8)
          else some (i, tot, (bits : Int))) = some (i', some t, ((b' + p.wots_log_w : Nat) : Int)) ∧
        (if bits = 0 then (i + 1, (input.getD i 0).toNat, bits + 8) else (i, total, bits)) =
          (i', t.toNat, b' + p.wots_log_w) ∧ b' ≤ 8 ∧ p.wots_log_w ∣ b' ∧ i' ≤ input.length ∧
        k * p.wots_log_w ≤ 8 * (input.length - i') + b' ∧ b' < 8 := by
      by_cases hz : bits = 0
      · have hil : i < input.length := by rcases hl with e | e <;> rw [e] at hk <;> omega
        refine ⟨i + 1, input.getD i 0, 8 - p.wots_log_w, ?_, ?_, ?_, ?_, ?_, ?_, ?_⟩
        · rw [if_pos (by omega), load_byte h hil]
          simp only [Option.bind_some, List.headD_cons, hz]
          rcases hl with e | e <;> rw [e] <;> rfl
        · rw [if_pos hz, hz]
          rcases hl with e | e <;> rw [e]
        · omega
        · rcases hl with e | e <;> rw [e] <;> decide
        · omega
        · rcases hl with e | e <;> rw [e] at hk ⊢ <;> omega
        · rcases hl with e | e <;> omega
      · obtain ⟨h1, h2⟩ := ht.resolve_left hz
        have hge : p.wots_log_w ≤ bits := Nat.le_of_dvd (by omega) hd
        refine ⟨i, UInt8.ofNat total, bits - p.wots_log_w, ?_, ?_, ?_, ?_, hi, ?_, ?_⟩
        · rw [if_neg (by omega), h1, Nat.sub_add_cancel hge]
        · rw [if_neg hz, UInt8.toNat_ofNat_of_lt' (by exact h2), Nat.sub_add_cancel hge]
        · omega
        · exact Nat.dvd_sub hd (Nat.dvd_refl _)
        · rcases hl with e | e <;> rw [e] at hk hge ⊢ <;> omega
        · rcases hl with e | e <;> omega
    have hbits : asInt (usub (ofInt ((b' + p.wots_log_w : Nat) : Int)) p.wots_log_w) = (b' : Int) := by
      rw [ofInt_nat (by rcases hl with e | e <;> omega), usub_eq (by omega) (by rcases hl with e | e <;> omega),
        Nat.add_sub_cancel, asInt_lt (by omega)]
    have htl := t.toNat_lt
    have hval : (t.toNat >>> b') &&& (p.wots_w - 1) < 2 ^ 31 := by
      have h1 := @Nat.and_le_left (t.toNat >>> b') (p.wots_w - 1)
      have h2 : t.toNat >>> b' ≤ t.toNat := Nat.shiftRight_le _ _
      omega
    rw [baseWLoop, Xmss.baseWLoop]
    simp only [he1, he2, Option.bind_eq_bind, Option.bind_some, hbits, hw1]
    rw [if_neg (by omega)]
    simp only [Int.toNat_natCast, asInt_lt hval, Nat.add_sub_cancel]
    rw [iset_append hpre hr0, Option.bind_some]
    rw [ih i' (o + 1) t.toNat b' (some t) _ (rest.drop 1) (by simp [hpre]; omega) (by simp; omega)
      (Or.inr ⟨by simp, htl⟩) hdb (by omega) hi' hk']
    simp [ints]

theorem baseW_length (input : Bytes) : ∀ (k i t b : Nat), (Xmss.baseWLoop p input k i t b).length = k := by
  intro k
  induction k with
  | zero => intro i t b; rfl
  | succ k ih => intro i t b; rw [Xmss.baseWLoop]; simp [ih]

theorem baseW_le (input : Bytes) : ∀ (k i t b : Nat), ∀ v ∈ Xmss.baseWLoop p input k i t b, v ≤ p.wots_w - 1 := by
  intro k
  induction k with
  | zero => intro i t b v hv; simp [Xmss.baseWLoop] at hv
  | succ k ih =>
    intro i t b v hv
    rw [Xmss.baseWLoop] at hv
    simp only [List.mem_cons] at hv
    rcases hv with rfl | hv
    · exact Nat.and_le_right
    · exact ih _ _ _ _ hv

theorem baseW_of (hl : p.wots_log_w = 2 ∨ p.wots_log_w = 4) (hw : p.wots_w = 2 ^ p.wots_log_w) {m : Mem} {inp : Ptr}
    {input : Bytes} (h : load m inp input.length = some input) {base k : Nat} (pre rest : IArr) (hp : pre.length = base)
    (hr : k ≤ rest.length) (hk : k * p.wots_log_w ≤ 8 * input.length) (hk2 : k < 2 ^ 31) :
    baseW p m (pre ++ rest) base k inp = some (pre ++ ints (Xmss.baseW p k input) ++ rest.drop k) := by
  unfold baseW Xmss.baseW
  rw [asInt_lt hk2, Int.toNat_natCast]
  exact baseWLoop_of hl hw h k 0 0 0 0 none pre rest (by omega) hr (Or.inl rfl) (Nat.dvd_zero _) (by omega) (by omega) (by omega)

theorem csumLoop_of (hw : 0 < p.wots_w) : ∀ (l : List Nat) (pre rest : IArr) (i c : Nat), pre.length = i →
    (∀ v ∈ l, v ≤ p.wots_w - 1) → c + l.length * (p.wots_w - 1) < 2 ^ 31 → p.wots_w < 2 ^ 31 →
    csumLoop p (pre ++ ints l ++ rest) l.length i (c : Int) = some ((Xmss.csumLoop p l c : Nat) : Int) := by
  intro l
  induction l with
  | nil => intro pre rest i c _ _ _ _; rfl
  | cons x l ih =>
    intro pre rest i c hp hv hb hw2
    have hx := hv x (by simp)
    simp only [List.length_cons, Nat.add_mul, Nat.one_mul] at hb ⊢
    rw [csumLoop, Xmss.csumLoop]
    have e : pre ++ ints (x :: l) ++ rest = pre ++ some (x : Int) :: (ints l ++ rest) := by simp [ints]
    rw [e, iget_append hp]
    simp only [Option.bind_eq_bind, Option.bind_some]
    rw [ofInt_nat (by omega), ofInt_nat (u := x) (by omega), usub_eq (a := p.wots_w) (by omega) (by omega),
      usub_eq (by omega) (by omega), w32_lt (by omega), asInt_lt (by omega)]
    have e2 : pre ++ some (x : Int) :: (ints l ++ rest) = (pre ++ [some (x : Int)]) ++ ints l ++ rest := by simp
    rw [e2]
    exact ih _ rest (i + 1) _ (by simp [hp]) (fun v hv' => hv v (by simp [hv'])) (by omega) hw2

theorem chainLengths_of (g : p.Good) {m : Mem} {msg : Ptr} {M : Bytes} (h : load m msg p.n = some M) :
    (lengthsArr p).bind (fun l => chainLengths p m l msg) = some (ints (Xmss.chainLengths p M)) := by
  have hM := load_length h
  have hlen := len_lt g
  have hle := g.len_eq
  have h1 := g.len1_mul
  have hcs := csum_bound g
  have hw0 : p.wots_w < 2 ^ 31 ∧ 0 < p.wots_w := by
    have := g.w_eq
    rcases g.logw_mem with e | e <;> rw [e] at this <;> omega
  have h2 : p.wots_len2 * p.wots_log_w + 7 < 2 ^ 32 := by
    have := len2_le g
    rcases g.logw_mem with e | e <;> rw [e] <;> omega
  unfold lengthsArr
  rw [if_neg (by have := g.len_pos; omega), Option.bind_some]
  unfold chainLengths
  have b1 := baseW_of (p := p) g.logw_mem g.w_eq (m := m) (inp := msg) (input := M) (by rw [hM]; exact h) (base := 0)
    (k := p.wots_len1) [] (List.replicate p.wots_len none) rfl (by simp; omega) (by omega) (by omega)
  rw [List.nil_append, List.nil_append] at b1
  simp only [b1, Option.bind_eq_bind, Option.bind_some]
  have hd : List.drop p.wots_len1 (List.replicate p.wots_len (none : Option Int)) = List.replicate p.wots_len2 none := by
    rw [List.drop_replicate]; congr 1; omega
  rw [hd]
  have hbl : (Xmss.baseW p p.wots_len1 M).length = p.wots_len1 := baseW_length _ _ _ _ _
  have hbv : ∀ v ∈ Xmss.baseW p p.wots_len1 M, v ≤ p.wots_w - 1 := baseW_le _ _ _ _ _
  unfold wotsChecksum
  have e0 : w32 (p.wots_len2 * p.wots_log_w) = p.wots_len2 * p.wots_log_w := w32_lt (by omega)
  rw [e0, w32_lt h2]
  have hcb : 0 < (p.wots_len2 * p.wots_log_w + 7) / 8 := by
    have := g.len2_pos
    have : 1 ≤ p.wots_len2 * p.wots_log_w := by rcases g.logw_mem with e | e <;> rw [e] <;> omega
    omega
  rw [alloc_pos hcb]
  simp only [Option.bind_eq_bind, Option.bind_some]
  have c1 := csumLoop_of (p := p) hw0.2 (Xmss.baseW p p.wots_len1 M) [] (List.replicate p.wots_len2 none) 0 0 rfl hbv
    (by rw [hbl]; omega) hw0.1
  rw [List.nil_append, hbl] at c1
  rw [show ((0 : Int)) = ((0 : Nat) : Int) from rfl, c1, Option.bind_some]
  have hcsum : Xmss.csumLoop p (Xmss.baseW p p.wots_len1 M) 0 < 2 ^ 23 := by
    rw [csumLoop_eq]
    have := sum_le_of_lt p.wots_w (Xmss.baseW p p.wots_len1 M)
    rw [hbl] at this
    omega
  have hsh : usub 8 (p.wots_len2 * p.wots_log_w % 8) = 8 - p.wots_len2 * p.wots_log_w % 8 :=
    usub_eq (by omega) (by omega)
  rw [hsh]
  have hs8 : 8 - p.wots_len2 * p.wots_log_w % 8 ≤ 8 := by omega
  have hpw : 2 ^ (8 - p.wots_len2 * p.wots_log_w % 8) ≤ 2 ^ 8 := Nat.pow_le_pow_right (by omega) hs8
  have hcs2 : Xmss.csumLoop p (Xmss.baseW p p.wots_len1 M) 0 * 2 ^ (8 - p.wots_len2 * p.wots_log_w % 8) < 2 ^ 31 := by
    calc _ ≤ Xmss.csumLoop p (Xmss.baseW p p.wots_len1 M) 0 * 2 ^ 8 := Nat.mul_le_mul_left _ hpw
      _ < 2 ^ 31 := by omega
  have hcast : ((Xmss.csumLoop p (Xmss.baseW p p.wots_len1 M) 0 : Nat) : Int) * 2 ^ (8 - p.wots_len2 * p.wots_log_w % 8) =
      ((Xmss.csumLoop p (Xmss.baseW p p.wots_len1 M) 0 * 2 ^ (8 - p.wots_len2 * p.wots_log_w % 8) : Nat) : Int) := by
    push_cast; rfl
  rw [hcast, if_neg (by omega), ofInt64_nat (by omega)]
  rw [ullToBytes_of (Or.inl hcb) (by omega) (by omega), store_right0, store_cons_zero,
    write_full (by simp [ullToBytes_length])]
  simp only [Option.map_some, Option.bind_some]
  have b2 := baseW_of (p := p) g.logw_mem g.w_eq
    (m := m ++ [(Xmss.ullToBytes ((p.wots_len2 * p.wots_log_w + 7) / 8)
      (Xmss.csumLoop p (Xmss.baseW p p.wots_len1 M) 0 * 2 ^ (8 - p.wots_len2 * p.wots_log_w % 8))).map some])
    (inp := ⟨m.length, 0⟩) (input := Xmss.ullToBytes ((p.wots_len2 * p.wots_log_w + 7) / 8)
      (Xmss.csumLoop p (Xmss.baseW p p.wots_len1 M) 0 * 2 ^ (8 - p.wots_len2 * p.wots_log_w % 8)))
    (by rw [load_right0, load_cons_zero, read_full rfl]) (base := p.wots_len1) (k := p.wots_len2)
    (ints (Xmss.baseW p p.wots_len1 M)) (List.replicate p.wots_len2 none) (by rw [ints_length, hbl]) (by simp)
    (by rw [ullToBytes_length]; omega) (by omega)
  rw [b2]
  unfold Xmss.chainLengths Xmss.wotsChecksum
  simp only [Nat.shiftLeft_eq, List.drop_replicate, Nat.sub_self, List.replicate_zero, List.append_nil]
  simp [ints]

theorem chainLengths_facts (g : p.Good) (M : Bytes) :
    (Xmss.chainLengths p M).length = p.wots_len ∧ ∀ v ∈ Xmss.chainLengths p M, v ≤ p.wots_w - 1 := by
  unfold Xmss.chainLengths Xmss.wotsChecksum Xmss.baseW
  constructor
  · simp [baseW_length, g.len_eq]
  · intro v hv
    simp only [List.mem_append] at hv
    rcases hv with hv | hv
    · exact baseW_le _ _ _ _ _ v hv
    · exact baseW_le _ _ _ _ _ v hv

theorem iget_ints {l : List Nat} {i : Nat} (h : i < l.length) : iget (ints l) i = some ((l[i] : Nat) : Int) := by
  unfold iget ints
  rw [List.getElem?_map, List.getElem?_eq_getElem h]
  rfl

end digits

/-! ### Valid ranges -/

/-- The `len` bytes at `q` exist. -/
def Valid (m : Mem) (q : Ptr) (len : Nat) : Prop := ∃ b, m[q.blk]? = some b ∧ q.off + len ≤ b.length

theorem Valid.store {m : Mem} {q : Ptr} {len : Nat} (h : Valid m q len) {x : Bytes} (hx : x.length ≤ len) :
    ∃ m', store m q x = some m' := by
  obtain ⟨b, h1, h2⟩ := h
  exact ⟨_, store_eq_some.mpr ⟨b, _, h1, by unfold Block.write; rw [if_pos (by omega)], rfl⟩⟩

theorem Valid.store_nil {m : Mem} {q : Ptr} {len : Nat} (h : Valid m q len) : Low.store m q [] = some m := by
  obtain ⟨b, h1, h2⟩ := h
  refine store_eq_some.mpr ⟨b, b, h1, ?_, ?_⟩
  · unfold Block.write
    rw [if_pos (by simp; omega)]
    simp
  · obtain ⟨hlt, rfl⟩ := List.getElem?_eq_some_iff.mp h1
    exact (List.set_getElem_self hlt).symm

theorem valid_of_store {m m' : Mem} {q : Ptr} {x : Bytes} (h : store m q x = some m') : Valid m q x.length := by
  obtain ⟨b, b', h1, h2, _⟩ := store_eq_some.mp h
  refine ⟨b, h1, ?_⟩
  unfold Block.write at h2
  by_contra hc
  rw [if_neg hc] at h2
  exact absurd h2 (by simp)

theorem valid_of_load {m : Mem} {q : Ptr} {len : Nat} {x : Bytes} (h : load m q len = some x) : Valid m q len := by
  have := valid_of_store (store_load h)
  rwa [load_length h] at this

theorem Valid.after {m m' : Mem} {q r : Ptr} {len : Nat} {x : Bytes} (h : Valid m q len) (hs : Low.store m r x = some m') :
    Valid m' q len := by
  obtain ⟨b, h1, h2⟩ := h
  obtain ⟨c, c', h3, h4, rfl⟩ := store_eq_some.mp hs
  by_cases e : r.blk = q.blk
  · have hlt := (List.getElem?_eq_some_iff.mp h1).1
    refine ⟨c', by rw [e, List.getElem?_set_self hlt], ?_⟩
    rw [write_length h4]
    rw [e, h1] at h3
    cases h3
    exact h2
  · exact ⟨b, by rw [List.getElem?_set_ne e]; exact h1, h2⟩

theorem Valid.sub {m : Mem} {q : Ptr} {len : Nat} (h : Valid m q len) (o k : Nat) (hk : o + k ≤ len) : Valid m (q + o) k := by
  obtain ⟨b, h1, h2⟩ := h
  exact ⟨b, h1, by simp only [add_off]; omega⟩

theorem Valid.left {m L : Mem} {q : Ptr} {len : Nat} (h : Valid m q len) : Valid (m ++ L) q len := by
  obtain ⟨b, h1, h2⟩ := h
  exact ⟨b, by rw [List.getElem?_append_left (List.getElem?_eq_some_iff.mp h1).1]; exact h1, h2⟩

theorem Valid.blk {m : Mem} {q : Ptr} {len : Nat} (h : Valid m q len) : q.blk < m.length := by
  obtain ⟨b, h1, _⟩ := h
  exact (List.getElem?_eq_some_iff.mp h1).1

theorem valid_right {m : Mem} {b : Block} {len : Nat} (h : len ≤ b.length) : Valid (m ++ [b]) ⟨m.length, 0⟩ len :=
  ⟨b, by simp, by simpa using h⟩

/-! ### Chains -/

section chains
variable {P : Prims} {H : Bytes → Bytes} {p : Params}

theorem thashF_length (hl : ∀ x, (H x).length = p.n) (x s : Bytes) (a : Addr) : (Xmss.thashF H p x s a).1.length = p.n := hl _
theorem thashH_length (hl : ∀ x, (H x).length = p.n) (x s : Bytes) (a : Addr) : (Xmss.thashH H p x s a).1.length = p.n := hl _

theorem genChainLoop_length (hl : ∀ x, (H x).length = p.n) (s : Bytes) : ∀ (k i : Nat) (x : Bytes) (a : Addr), x.length = p.n →
    (Xmss.genChainLoop H p s k i x a).1.length = p.n := by
  intro k
  induction k with
  | zero => intro i x a h; exact h
  | succ k ih => intro i x a _; exact ih _ _ _ (hl _)

theorem genChain_length (hl : ∀ x, (H x).length = p.n) (x : Bytes) (hx : x.length = p.n) (st k : Nat) (s : Bytes) (a : Addr) :
    (Xmss.genChain H p x st k s a).1.length = p.n := genChainLoop_length hl s _ _ _ _ hx

theorem genChainLoop_of (hH : Xmss.coreHash P p.func p.n = some H) (hl : ∀ x, (H x).length = p.n) (f : Fits p)
    (hw : p.wots_w < 2 ^ 31) {out pubSeed : Ptr} {s : Bytes} {bound : Nat} (d : Disj pubSeed p.n out p.n) : ∀ (k fuel i : Nat) (m : Mem) (x : Bytes)
    (a : Addr), k = min bound p.wots_w - i → k < fuel → load m out p.n = some x → load m pubSeed p.n = some s →
    ∃ m', store m out (Xmss.genChainLoop H p s k i x a).1 = some m' ∧
      genChainLoop P p out pubSeed bound fuel i m a = some (m', (Xmss.genChainLoop H p s k i x a).2) := by
  intro k
  induction k with
  | zero =>
    intro fuel i m x a hk hf hx hs
    obtain ⟨fuel, rfl⟩ : ∃ g, fuel = g + 1 := ⟨fuel - 1, by omega⟩
    refine ⟨m, store_load hx, ?_⟩
    rw [genChainLoop, if_neg (by omega)]
    rfl
  | succ k ih =>
    intro fuel i m x a hk hf hx hs
    obtain ⟨fuel, rfl⟩ : ∃ g, fuel = g + 1 := ⟨fuel - 1, by omega⟩
    rw [genChainLoop, if_pos (by omega), thashF_of hH hl f hx hs (load_blk hx)]
    obtain ⟨m1, h1⟩ := (valid_of_load hx).store (x := (Xmss.thashF H p x s (setHashAddr a i)).1) (by rw [thashF_length hl])
    rw [h1]
    simp only [Option.bind_eq_bind, Option.map_some]
    rw [Option.bind_some]
    dsimp only
    rw [w32_lt (by omega)]
    have hx1 := load_store_self h1
    rw [thashF_length hl] at hx1
    obtain ⟨m2, h2, h3⟩ := ih fuel (i + 1) m1 _ (Xmss.thashF H p x s (setHashAddr a i)).2 (by omega) (by omega) hx1
      (by rw [load_store_disj h1 (by rw [thashF_length hl]; exact d), hs])
    refine ⟨m2, ?_, h3⟩
    rw [store_over h1] at h2
    · exact h2
    · rw [thashF_length hl, genChainLoop_length hl _ _ _ _ _ (thashF_length hl _ _ _)]

theorem genChain_of (hH : Xmss.coreHash P p.func p.n = some H) (hl : ∀ x, (H x).length = p.n) (f : Fits p)
    (hw : p.wots_w < 2 ^ 31) {m : Mem} {out inp pubSeed : Ptr} {x s : Bytes} {start steps : Nat} (hst : start + steps < 2 ^ 32)
    (d : Disj pubSeed p.n out p.n) (hx : load m inp p.n = some x) (hs : load m pubSeed p.n = some s) (hv : Valid m out p.n)
    (hio : out = inp ∨ Disj out p.n inp p.n) (a : Addr) :
    ∃ m', store m out (Xmss.genChain H p x start steps s a).1 = some m' ∧
      genChain P p m out inp start steps pubSeed a = some (m', (Xmss.genChain H p x start steps s a).2) := by
  have hxl := load_length hx
  obtain ⟨m1, h1⟩ := hv.store (x := x) (by omega)
  have hm : memcpy m out inp p.n = some m1 := by
    rcases hio with e | e
    · rw [e, memcpy_same hx, ← e, h1]
    · rw [memcpy_eq hx e, h1]
  unfold genChain
  rw [hm]
  simp only [Option.bind_eq_bind]
  rw [Option.bind_some, w32_lt hst]
  have hx1 := load_store_self h1
  rw [hxl] at hx1
  obtain ⟨m2, h2, h3⟩ := genChainLoop_of hH hl f hw (bound := start + steps) d (min (start + steps) p.wots_w - start) (p.wots_w + 1)
    start m1 x a rfl (by omega) hx1 (by rw [load_store_disj h1 (by rw [hxl]; exact d), hs])
  refine ⟨m2, ?_, h3⟩
  rw [store_over h1] at h2
  · exact h2
  · rw [hxl]; exact genChainLoop_length hl _ _ _ _ _ hxl

/-! ### Seed expansion -/

theorem prfKeygen_length (hl : ∀ x, (H x).length = p.n) (x k : Bytes) : (Xmss.prfKeygen H p x k).length = p.n := hl _

theorem expandSeedLoop_lengths (hl : ∀ x, (H x).length = p.n) (k s : Bytes) : ∀ (j i : Nat) (a : Addr),
    (Xmss.expandSeedLoop H p k s j i a).1.length = j ∧ ∀ x ∈ (Xmss.expandSeedLoop H p k s j i a).1, x.length = p.n := by
  intro j
  induction j with
  | zero => intro i a; exact ⟨rfl, by intro x hx; cases hx⟩
  | succ j ih =>
    intro i a
    rw [Xmss.expandSeedLoop]
    have := ih (i + 1) (setChainAddr a i)
    refine ⟨by simp [this.1], ?_⟩
    intro x hx
    simp only [List.mem_cons] at hx
    rcases hx with rfl | hx
    · exact hl _
    · exact this.2 x hx

theorem expandSeedLoop_of (hH : Xmss.coreHash P p.func p.n = some H) (hl : ∀ x, (H x).length = p.n) (f : Fits p)
    {m0 : Mem} {out inseed : Ptr} {k s : Bytes} {L : Nat} (hv : Valid m0 out (L * p.n)) (hL : L * p.n < 2 ^ 32)
    (hs : s.length = p.n) (d : Disj inseed p.n out (L * p.n)) (hk : load m0 inseed p.n = some k) :
    ∀ (j i : Nat) (m : Mem) (A : Bytes) (T : Block) (a : Addr), i + j = L → store m0 out A = some m → A.length = i * p.n →
      T.length = 32 →
      ∃ m' T', store m0 out (A ++ (Xmss.expandSeedLoop H p k s j i a).1.flatten) = some m' ∧
        expandSeedLoop P p out inseed ⟨m0.length, 0⟩ j i (m ++ [s.map some ++ T]) a =
          some (m' ++ [s.map some ++ T'], (Xmss.expandSeedLoop H p k s j i a).2) := by
  intro j
  have hn := f.n_pos; have hnl := f.n_lt
  induction j with
  | zero =>
    intro i m A T a _ hA _ _
    exact ⟨m, T, by simpa [Xmss.expandSeedLoop] using hA, rfl⟩
  | succ j ih =>
    intro i m A T a hi hA hAl hT
    have hml := store_length hA
    have hle : (i + 1) * p.n ≤ L * p.n := Nat.mul_le_mul_right _ (by omega)
    have hle' : i * p.n + p.n ≤ L * p.n := by rw [← Nat.succ_mul]; exact hle
    rw [expandSeedLoop, Xmss.expandSeedLoop]
    dsimp only
    rw [addrToBytes_of, mk_add, Nat.zero_add, ← hml, store_right0, store_cons_zero]
    have al := addrToBytes_length (setChainAddr a i)
    have hw : Block.write (s.map some ++ T) p.n (Xmss.addrToBytes (setChainAddr a i)) =
        some (s.map some ++ (Xmss.addrToBytes (setChainAddr a i)).map some) := by
      refine write_eq_some.mpr ⟨s.map some, T, [], by simp, by simp [hs], by rw [hT, al], by simp⟩
    rw [hw]
    simp only [Option.bind_eq_bind, Option.map_some]
    rw [Option.bind_some, w32_lt (by omega)]
    have hkm : load m inseed p.n = some k := by
      rw [load_store_disj hA (d.mono le_rfl (by omega)), hk]
    have hob : out.blk < m.length := by rw [hml]; exact hv.blk
    rw [prfKeygen_of hH f (x := s ++ Xmss.addrToBytes (setChainAddr a i)) (k := k)
      (by rw [load_right0, load_cons_zero, ← List.map_append, read_full (by simp [hs, al])])
      (by rw [load_left (load_blk hkm), hkm]) (by simp only [add_blk, List.length_append]; omega)]
    rw [store_left (by simp only [add_blk]; exact hob)]
    have hnode := prfKeygen_length (p := p) hl (s ++ Xmss.addrToBytes (setChainAddr a i)) k
    obtain ⟨m1, h1⟩ := hv.store (x := A ++ Xmss.prfKeygen H p (s ++ Xmss.addrToBytes (setChainAddr a i)) k)
      (by rw [List.length_append, hAl, hnode]; exact hle')
    have h1' := store_append' (y := Xmss.prfKeygen H p (s ++ Xmss.addrToBytes (setChainAddr a i)) k) hA
    rw [hAl] at h1'
    rw [h1', h1, Option.map_some, Option.bind_some]
    obtain ⟨m2, T', h2, h3⟩ := ih (i + 1) m1 _ ((Xmss.addrToBytes (setChainAddr a i)).map some) (setChainAddr a i) (by omega) h1
      (by rw [List.length_append, hAl, hnode, Nat.succ_mul]) (by simp [al])
    refine ⟨m2, T', ?_, ?_⟩
    · simpa using h2
    · rw [hml]
      exact h3

theorem expandSeed_of (hH : Xmss.coreHash P p.func p.n = some H) (hl : ∀ x, (H x).length = p.n) (g : p.Good)
    {m : Mem} {out inseed pubSeed : Ptr} {k s : Bytes} (hv : Valid m out (p.wots_len * p.n))
    (d : Disj inseed p.n out (p.wots_len * p.n)) (hk : load m inseed p.n = some k) (hs : load m pubSeed p.n = some s) (a : Addr) :
    ∃ m', store m out (Xmss.expandSeed H p k s a).1.flatten = some m' ∧
      expandSeed P p m out inseed pubSeed a = some (m', (Xmss.expandSeed H p k s a).2) := by
  have f := fits_of_good g
  have hn := f.n_pos; have hnl := f.n_lt
  have hsl := load_length hs
  have h0 := hv.store_nil
  unfold expandSeed
  rw [w32_lt (by omega), alloc_pos (by omega)]
  simp only [Option.bind_eq_bind]
  rw [Option.bind_some]
  dsimp only
  rw [memcpy_eq (x := s) (by rw [load_left (load_blk hs), hs]) (Disj.of_blk (by have := load_blk hs; simp; omega)),
    store_right0, store_cons_zero]
  have hw : Block.write (List.replicate (p.n + 32) none) 0 s = some (s.map some ++ List.replicate 32 none) := by
    rw [← part_nil, write_part (x := []) (off := 0) rfl (by simp; omega)]
    simp [part, hsl]
  rw [hw]
  simp only [Option.map_some]
  rw [Option.bind_some]
  obtain ⟨m2, T', h2, h3⟩ := expandSeedLoop_of hH hl f hv (len_mul_lt g) hsl d hk p.wots_len 0 m [] (List.replicate 32 none)
    (setKeyAndMask (setHashAddr a 0) 0) (by omega) h0 (by simp) (by simp)
  rw [h3, Option.bind_some]
  rw [List.nil_append] at h2
  refine ⟨m2, h2, ?_⟩
  rw [release_append (store_length h2)]
  rfl

theorem expandSeed_lengths (hl : ∀ x, (H x).length = p.n) (k s : Bytes) (a : Addr) :
    (Xmss.expandSeed H p k s a).1.length = p.wots_len ∧ ∀ x ∈ (Xmss.expandSeed H p k s a).1, x.length = p.n :=
  expandSeedLoop_lengths hl k s _ _ _

/-! ### The loops over the chains -/

theorem chainsLoop_lengths (hl : ∀ x, (H x).length = p.n) (s : Bytes) : ∀ (l : List (Bytes × Nat × Nat)) (i : Nat) (a : Addr),
    (∀ c ∈ l, c.1.length = p.n) →
    (Xmss.chainsLoop H p s i l a).1.length = l.length ∧ ∀ x ∈ (Xmss.chainsLoop H p s i l a).1, x.length = p.n := by
  intro l
  induction l with
  | nil => intro i a _; exact ⟨rfl, by intro x hx; cases hx⟩
  | cons c l ih =>
    obtain ⟨x, st, k⟩ := c
    intro i a hc
    have := ih (i + 1) (Xmss.genChain H p x st k s (setChainAddr a i)).2 (fun c hc' => hc c (by simp [hc']))
    rw [Xmss.chainsLoop]
    refine ⟨by simp [this.1], ?_⟩
    intro y hy
    simp only [List.mem_cons] at hy
    rcases hy with rfl | hy
    · exact genChain_length hl x (hc (x, st, k) (by simp)) _ _ _ _
    · exact this.2 y hy

/-- One chain of an in-place loop. -/
theorem inplace_step (hH : Xmss.coreHash P p.func p.n = some H) (hl : ∀ x, (H x).length = p.n) (f : Fits p) (hw : p.wots_w < 2 ^ 31)
    {m0 m : Mem} {out pubSeed : Ptr} {s D x C : Bytes} {i L steps : Nat} (hs : load m0 pubSeed p.n = some s)
    (d : Disj pubSeed p.n out (L * p.n)) (hst : steps < 2 ^ 32) (hm : store m0 out (D ++ x ++ C) = some m) (hx : x.length = p.n)
    (hD : D.length = i * p.n) (hlen : D.length + p.n + C.length ≤ L * p.n) (a : Addr) :
    ∃ m', store m0 out (D ++ (Xmss.genChain H p x 0 steps s a).1 ++ C) = some m' ∧
      genChain P p m (out + i * p.n) (out + i * p.n) 0 steps pubSeed a = some (m', (Xmss.genChain H p x 0 steps s a).2) := by
  have h1 := load_store hm
  rw [hx, hD] at h1
  have h2 : load m pubSeed p.n = some s := by
    rw [load_store_disj hm (d.mono le_rfl (by simp [hx]; omega)), hs]
  obtain ⟨m', h3, h4⟩ := genChain_of hH hl f hw (start := 0) (steps := steps) (by omega) (d.sub _ _ (by omega)) h1 h2
    (valid_of_load h1) (Or.inl rfl) a
  refine ⟨m', ?_, h4⟩
  rw [← hD, store_mid hm (by rw [genChain_length hl x hx, hx])] at h3
  exact h3

theorem pkgenLoop_of (hH : Xmss.coreHash P p.func p.n = some H) (hl : ∀ x, (H x).length = p.n) (f : Fits p)
    (hw : p.wots_w < 2 ^ 31 ∧ 0 < p.wots_w) {m0 : Mem} {out pubSeed : Ptr} {s : Bytes} {L : Nat} (hs : load m0 pubSeed p.n = some s)
    (d : Disj pubSeed p.n out (L * p.n)) (hL : L * p.n < 2 ^ 32) : ∀ (xs : List Bytes) (i : Nat) (m : Mem) (D : Bytes) (a : Addr),
    (∀ x ∈ xs, x.length = p.n) → i + xs.length = L → store m0 out (D ++ xs.flatten) = some m → D.length = i * p.n →
    ∃ m', store m0 out (D ++ (Xmss.chainsLoop H p s i (xs.map fun x => (x, 0, p.wots_w - 1)) a).1.flatten) = some m' ∧
      pkgenLoop P p out pubSeed xs.length i m a = some (m', (Xmss.chainsLoop H p s i (xs.map fun x => (x, 0, p.wots_w - 1)) a).2) := by
  intro xs
  induction xs with
  | nil => intro i m D a _ _ hm _; exact ⟨m, hm, rfl⟩
  | cons x xs ih =>
    intro i m D a hxs hi hm hD
    have hx := hxs x (by simp)
    have hxs' : ∀ x ∈ xs, x.length = p.n := fun y hy => hxs y (by simp [hy])
    have hfl : xs.flatten.length = xs.length * p.n := flatten_length_of hxs'
    simp only [List.length_cons] at hi ⊢
    have hLe : i * p.n + p.n + xs.length * p.n = L * p.n := by rw [← hi]; ring
    rw [List.flatten_cons, ← List.append_assoc] at hm
    obtain ⟨m1, h1, h2⟩ := inplace_step hH hl f hw.1 hs d (steps := p.wots_w - 1) (by omega) hm hx hD (by rw [hD, hfl]; omega)
      (setChainAddr a i)
    rw [pkgenLoop, w32_lt (by omega), usub_eq (by omega) (by omega), h2]
    simp only [Option.bind_eq_bind]
    rw [Option.bind_some]
    obtain ⟨m2, h3, h4⟩ := ih (i + 1) m1 _ (Xmss.genChain H p x 0 (p.wots_w - 1) s (setChainAddr a i)).2 hxs' (by omega) h1
      (by rw [List.length_append, hD, genChain_length hl x hx, Nat.succ_mul])
    refine ⟨m2, ?_, h4⟩
    rw [List.map_cons, Xmss.chainsLoop, List.flatten_cons, ← List.append_assoc]
    exact h3

theorem wotsSignLoop_of (hH : Xmss.coreHash P p.func p.n = some H) (hl : ∀ x, (H x).length = p.n) (f : Fits p)
    (hw : p.wots_w < 2 ^ 31) {m0 : Mem} {out pubSeed : Ptr} {s : Bytes} {L : Nat} (hs : load m0 pubSeed p.n = some s)
    (d : Disj pubSeed p.n out (L * p.n)) (hL : L * p.n < 2 ^ 32) : ∀ (xs : List Bytes) (ls pre : List Nat) (i : Nat) (m : Mem) (D : Bytes)
    (a : Addr), (∀ x ∈ xs, x.length = p.n) → xs.length = ls.length → (∀ v ∈ ls, v < 2 ^ 31) → pre.length = i →
    i + xs.length = L → store m0 out (D ++ xs.flatten) = some m → D.length = i * p.n →
    ∃ m', store m0 out (D ++ (Xmss.chainsLoop H p s i (List.zipWith (fun x l => (x, 0, l)) xs ls) a).1.flatten) = some m' ∧
      wotsSignLoop P p out pubSeed (ints (pre ++ ls)) xs.length i m a =
        some (m', (Xmss.chainsLoop H p s i (List.zipWith (fun x l => (x, 0, l)) xs ls) a).2) := by
  intro xs
  induction xs with
  | nil => intro ls pre i m D a _ _ _ _ _ hm _; exact ⟨m, hm, rfl⟩
  | cons x xs ih =>
    intro ls pre i m D a hxs hls hv hpre hi hm hD
    cases ls with
    | nil => simp at hls
    | cons l ls =>
    have hx := hxs x (by simp)
    have hxs' : ∀ x ∈ xs, x.length = p.n := fun y hy => hxs y (by simp [hy])
    have hfl : xs.flatten.length = xs.length * p.n := flatten_length_of hxs'
    have hlv := hv l (by simp)
    simp only [List.length_cons] at hi hls ⊢
    have hLe : i * p.n + p.n + xs.length * p.n = L * p.n := by rw [← hi]; ring
    rw [List.flatten_cons, ← List.append_assoc] at hm
    obtain ⟨m1, h1, h2⟩ := inplace_step hH hl f hw hs d (steps := l) (by omega) hm hx hD (by rw [hD, hfl]; omega)
      (setChainAddr a i)
    have hget : iget (ints (pre ++ l :: ls)) i = some ((l : Nat) : Int) := by
      have e : ints (pre ++ l :: ls) = ints pre ++ some (l : Int) :: ints ls := by simp [ints]
      rw [e, iget_append (by rw [ints_length]; exact hpre)]
    rw [wotsSignLoop, hget]
    simp only [Option.bind_eq_bind]
    rw [Option.bind_some, w32_lt (by omega), ofInt_nat (by omega), h2, Option.bind_some]
    obtain ⟨m2, h3, h4⟩ := ih ls (pre ++ [l]) (i + 1) m1 _ (Xmss.genChain H p x 0 l s (setChainAddr a i)).2 hxs' (by omega)
      (fun v hv' => hv v (by simp [hv'])) (by simp [hpre]) (by omega) h1
      (by rw [List.length_append, hD, genChain_length hl x hx, Nat.succ_mul])
    refine ⟨m2, ?_, ?_⟩
    · rw [List.zipWith_cons_cons, Xmss.chainsLoop, List.flatten_cons, ← List.append_assoc]
      exact h3
    · rw [List.append_assoc, List.singleton_append] at h4
      exact h4

theorem pkFromSigLoop_of (hH : Xmss.coreHash P p.func p.n = some H) (hl : ∀ x, (H x).length = p.n) (f : Fits p)
    (hw : p.wots_w < 2 ^ 31 ∧ 0 < p.wots_w) {m0 : Mem} {out sig pubSeed : Ptr} {s sb : Bytes} {L : Nat}
    (hs : load m0 pubSeed p.n = some s) (hsig : load m0 sig (L * p.n) = some sb)
    (d : Disj pubSeed p.n out (L * p.n)) (d2 : Disj sig (L * p.n) out (L * p.n)) (hL : L * p.n < 2 ^ 32)
    (hv : Valid m0 out (L * p.n)) : ∀ (xs : List Bytes) (ls pre : List Nat) (i : Nat) (m : Mem) (E D : Bytes) (a : Addr),
    (∀ x ∈ xs, x.length = p.n) → xs.length = ls.length → (∀ v ∈ ls, v ≤ p.wots_w - 1) → pre.length = i →
    i + xs.length = L → sb = E ++ xs.flatten → E.length = i * p.n → store m0 out D = some m → D.length = i * p.n →
    ∃ m', store m0 out (D ++ (Xmss.chainsLoop H p s i (List.zipWith (fun x l => (x, l, p.wots_w - 1 - l)) xs ls) a).1.flatten) = some m' ∧
      pkFromSigLoop P p out sig pubSeed (ints (pre ++ ls)) xs.length i m a =
        some (m', (Xmss.chainsLoop H p s i (List.zipWith (fun x l => (x, l, p.wots_w - 1 - l)) xs ls) a).2) := by
  intro xs
  induction xs with
  | nil => intro ls pre i m E D a _ _ _ _ _ _ _ hm _; exact ⟨m, by simpa [Xmss.chainsLoop] using hm, rfl⟩
  | cons x xs ih =>
    intro ls pre i m E D a hxs hls hvl hpre hi hsb hE hm hD
    cases ls with
    | nil => simp at hls
    | cons l ls =>
    have hx := hxs x (by simp)
    have hxs' : ∀ x ∈ xs, x.length = p.n := fun y hy => hxs y (by simp [hy])
    have hlv := hvl l (by simp)
    simp only [List.length_cons] at hi hls ⊢
    have hLe : i * p.n + p.n + xs.length * p.n = L * p.n := by rw [← hi]; ring
    have h1 : load m (sig + i * p.n) p.n = some x := by
      have h0 : load m sig (L * p.n) = some sb := by rw [load_store_disj hm (d2.mono le_rfl (by omega)), hsig]
      rw [hsb, List.flatten_cons, ← List.append_assoc] at h0
      have := load_sub h0
      rwa [hE, hx] at this
    have h2 : load m pubSeed p.n = some s := by rw [load_store_disj hm (d.mono le_rfl (by omega)), hs]
    obtain ⟨m1, h3, h4⟩ := genChain_of hH hl f hw.1 (out := out + i * p.n) (start := l) (steps := p.wots_w - 1 - l) (by omega)
      (d.sub _ _ (by omega)) h1 h2 ((hv.after hm).sub _ _ (by omega))
      (Or.inr ((d2.symm.sub_left (i * p.n) p.n (by omega)).sub (i * p.n) p.n (by omega))) (setChainAddr a i)
    rw [← hD, store_append' hm] at h3
    have hget : iget (ints (pre ++ l :: ls)) i = some ((l : Nat) : Int) := by
      have e : ints (pre ++ l :: ls) = ints pre ++ some (l : Int) :: ints ls := by simp [ints]
      rw [e, iget_append (by rw [ints_length]; exact hpre)]
    rw [pkFromSigLoop, hget]
    simp only [Option.bind_eq_bind]
    rw [Option.bind_some, w32_lt (by omega), ofInt_nat (by omega), usub_eq (a := p.wots_w) (by omega) (by omega),
      usub_eq (by omega) (by omega), h4, Option.bind_some]
    obtain ⟨m2, h5, h6⟩ := ih ls (pre ++ [l]) (i + 1) m1 (E ++ x) _ (Xmss.genChain H p x l (p.wots_w - 1 - l) s (setChainAddr a i)).2
      hxs' (by omega) (fun v hv' => hvl v (by simp [hv'])) (by simp [hpre]) (by omega) (by rw [hsb]; simp)
      (by rw [List.length_append, hE, hx, Nat.succ_mul]) h3
      (by rw [List.length_append, hD, genChain_length hl x hx, Nat.succ_mul])
    refine ⟨m2, ?_, ?_⟩
    · rw [List.zipWith_cons_cons, Xmss.chainsLoop, List.flatten_cons, ← List.append_assoc]
      exact h5
    · rw [List.append_assoc, List.singleton_append] at h6
      exact h6

/-! ### wots.c -/

theorem w_bounds (g : p.Good) : p.wots_w < 2 ^ 31 ∧ 0 < p.wots_w := by
  have h1 := g.w_le; have h2 := g.w_ge
  omega

theorem wotsPkgen_of (hH : Xmss.coreHash P p.func p.n = some H) (hl : ∀ x, (H x).length = p.n) (g : p.Good)
    {m : Mem} {out seed pubSeed : Ptr} {k s : Bytes} (hv : Valid m out (p.wots_len * p.n))
    (d1 : Disj seed p.n out (p.wots_len * p.n)) (d2 : Disj pubSeed p.n out (p.wots_len * p.n)) (hk : load m seed p.n = some k)
    (hs : load m pubSeed p.n = some s) (a : Addr) :
    ∃ m', store m out (Xmss.wotsPkgen H p k s a).1.flatten = some m' ∧
      wotsPkgen P p m out seed pubSeed a = some (m', (Xmss.wotsPkgen H p k s a).2) := by
  obtain ⟨m1, h1, h2⟩ := expandSeed_of hH hl g hv d1 hk hs a
  obtain ⟨e1, e2⟩ := expandSeed_lengths (p := p) hl k s a
  obtain ⟨m2, h3, h4⟩ := pkgenLoop_of hH hl (fits_of_good g) (w_bounds g) hs d2 (len_mul_lt g) (Xmss.expandSeed H p k s a).1 0 m1 []
    (Xmss.expandSeed H p k s a).2 e2 (by omega) (by simpa using h1) (by simp)
  unfold wotsPkgen
  rw [h2]
  simp only [Option.bind_eq_bind]
  rw [Option.bind_some]
  rw [e1] at h4
  exact ⟨m2, h3, h4⟩

theorem wotsSign_of (hH : Xmss.coreHash P p.func p.n = some H) (hl : ∀ x, (H x).length = p.n) (g : p.Good)
    {m : Mem} {sig msg seed pubSeed : Ptr} {M k s : Bytes} (hv : Valid m sig (p.wots_len * p.n))
    (d1 : Disj seed p.n sig (p.wots_len * p.n)) (d2 : Disj pubSeed p.n sig (p.wots_len * p.n)) (hM : load m msg p.n = some M)
    (hk : load m seed p.n = some k) (hs : load m pubSeed p.n = some s) (a : Addr) :
    ∃ m', store m sig (Xmss.wotsSign H p M k s a).1.flatten = some m' ∧
      wotsSign P p m sig msg seed pubSeed a = some (m', (Xmss.wotsSign H p M k s a).2) := by
  obtain ⟨m1, h1, h2⟩ := expandSeed_of hH hl g hv d1 hk hs a
  obtain ⟨e1, e2⟩ := expandSeed_lengths (p := p) hl k s a
  obtain ⟨c1, c2⟩ := chainLengths_facts g M
  have hw := w_bounds g
  obtain ⟨m2, h3, h4⟩ := wotsSignLoop_of hH hl (fits_of_good g) hw.1 hs d2 (len_mul_lt g) (Xmss.expandSeed H p k s a).1
    (Xmss.chainLengths p M) [] 0 m1 [] (Xmss.expandSeed H p k s a).2 e2 (by omega) (fun v hv => by have := c2 v hv; omega) rfl
    (by omega) (by simpa using h1) (by simp)
  unfold wotsSign
  have hc := chainLengths_of g hM
  cases hla : lengthsArr p with
  | none => rw [hla] at hc; simp at hc
  | some la =>
    rw [hla, Option.bind_some] at hc
    simp only [Option.bind_eq_bind]
    rw [Option.bind_some, hc, Option.bind_some, h2, Option.bind_some]
    rw [e1] at h4
    exact ⟨m2, h3, h4⟩

theorem wotsPkFromSig_of (hH : Xmss.coreHash P p.func p.n = some H) (hl : ∀ x, (H x).length = p.n) (g : p.Good)
    {m : Mem} {pk sig msg pubSeed : Ptr} {M s sb : Bytes} (hv : Valid m pk (p.wots_len * p.n))
    (d1 : Disj sig (p.wots_len * p.n) pk (p.wots_len * p.n)) (d2 : Disj pubSeed p.n pk (p.wots_len * p.n))
    (hM : load m msg p.n = some M) (hs : load m pubSeed p.n = some s) (hsig : load m sig (p.wots_len * p.n) = some sb) (a : Addr) :
    ∃ m', store m pk (Xmss.wotsPkFromSig H p (chunks p.n p.wots_len sb) M s a).1.flatten = some m' ∧
      wotsPkFromSig P p m pk sig msg pubSeed a = some (m', (Xmss.wotsPkFromSig H p (chunks p.n p.wots_len sb) M s a).2) := by
  obtain ⟨c1, c2⟩ := chainLengths_facts g M
  have hsl := load_length hsig
  have e1 := chunks_length p.n p.wots_len sb
  have e2 := chunks_mem_length hsl
  obtain ⟨m2, h3, h4⟩ := pkFromSigLoop_of hH hl (fits_of_good g) (w_bounds g) hs hsig d2 d1 (len_mul_lt g) hv
    (chunks p.n p.wots_len sb) (Xmss.chainLengths p M) [] 0 m [] [] a e2 (by omega) c2 rfl (by omega)
    (by rw [List.nil_append, chunks_flat hsl]) (by simp) hv.store_nil (by simp)
  unfold wotsPkFromSig
  have hc := chainLengths_of g hM
  cases hla : lengthsArr p with
  | none => rw [hla] at hc; simp at hc
  | some la =>
    rw [hla, Option.bind_some] at hc
    simp only [Option.bind_eq_bind]
    rw [Option.bind_some, hc, Option.bind_some]
    rw [e1] at h4
    exact ⟨m2, h3, h4⟩

end chains

end Xmss.Low
