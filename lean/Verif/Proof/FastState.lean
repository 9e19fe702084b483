import Verif.Model.FastCore
import Verif.Proof.BdsBuild
import Verif.Proof.Verify
/-
The traversal states inside the secret key of the fast implementation: sizes, and reading what was written.
-/
namespace Xmss

variable {p : Params}

theorem rd_mid {buf y : Bytes} (x z : Bytes) {off len : Nat} (hb : buf = x ++ y ++ z) (ho : off = x.length) (hl : len = y.length) :
    rd buf off len = some y := by
  rw [hb]; exact rd_append x y z ho hl

theorem bytesToUll_ullToBytes {k x : Nat} (hk : k ≤ 8) (hx : x < 256 ^ k) : bytesToUll (ullToBytes k x) = some x := by
  rw [bytesToUll_eq (by rw [ullToBytes_length]; exact hk), ullToBytes_eq, toNat_toByte, Nat.mod_eq_of_lt hx]

/-- Ranges of the fields of an instance. -/
def InstShape (p : Params) (t : TreehashInst) : Prop :=
  t.h < 256 ∧ t.nextIdx < 2 ^ 32 ∧ t.stackusage < 256 ∧ t.completed < 256 ∧ t.node.length = p.n

theorem instBytes_length {t : TreehashInst} (h : InstShape p t) : (instBytes t).length = 7 + p.n := by
  simp [instBytes, ullToBytes_length, h.2.2.2.2]; omega

theorem insts_length : ∀ {l : List TreehashInst}, (∀ t ∈ l, InstShape p t) →
    ((l.map instBytes).flatten).length = l.length * (7 + p.n) := by
  intro l h
  rw [flatten_length_of (n := 7 + p.n), List.length_map]
  intro x hx
  obtain ⟨t, ht, rfl⟩ := List.mem_map.mp hx
  exact instBytes_length (h t ht)

theorem stateBytes_length {s : BdsState} (sh : Shape p s) : (stateBytes s).length = bdsStateBytes p := by
  unfold stateBytes bdsStateBytes
  simp only [List.length_append, ullToBytes_length, List.length_map]
  rw [flatten_length_of sh.stack_mem, flatten_length_of sh.auth_mem, flatten_length_of sh.keep_mem,
    flatten_length_of sh.retain_mem, insts_length sh.insts_mem, sh.stack_len, sh.levels_len, sh.auth_len, sh.keep_len,
    sh.insts_len, sh.retain_len]
  rfl

theorem readInsts_eq : ∀ (l : List TreehashInst) (x z buf : Bytes) (off : Nat), (∀ t ∈ l, InstShape p t) → off = x.length →
    buf = x ++ (l.map instBytes).flatten ++ z →
    readInsts p buf l.length off = some (l, off + l.length * (7 + p.n)) := by
  intro l
  induction l with
  | nil => intro x z buf off _ ho _; simp [readInsts]
  | cons t l ih =>
    intro x z buf off hl ho hb
    have ht := hl t (by simp)
    have hb' : buf = x ++ instBytes t ++ ((l.map instBytes).flatten ++ z) := by
      rw [hb]; simp
    have hnext := ih (x ++ instBytes t) z buf (off + 7 + p.n) (fun t' h => hl t' (by simp [h]))
      (by rw [List.length_append, instBytes_length ht, ho]; omega) (by rw [hb']; simp)
    rw [List.length_cons, readInsts]
    rw [rd_mid x (ullToBytes 4 t.nextIdx ++ ullToBytes 1 t.stackusage ++ ullToBytes 1 t.completed ++ t.node ++
        ((l.map instBytes).flatten ++ z)) (y := ullToBytes 1 t.h) (by rw [hb']; simp [instBytes]) ho
        (ullToBytes_length _ _).symm]
    rw [rd_mid (x ++ ullToBytes 1 t.h) (ullToBytes 1 t.stackusage ++ ullToBytes 1 t.completed ++ t.node ++
        ((l.map instBytes).flatten ++ z)) (y := ullToBytes 4 t.nextIdx) (by rw [hb']; simp [instBytes])
        (by simp [ullToBytes_length, ho]) (ullToBytes_length _ _).symm]
    rw [rd_mid (x ++ ullToBytes 1 t.h ++ ullToBytes 4 t.nextIdx) (ullToBytes 1 t.completed ++ t.node ++
        ((l.map instBytes).flatten ++ z)) (y := ullToBytes 1 t.stackusage) (by rw [hb']; simp [instBytes])
        (by simp [ullToBytes_length, ho]) (ullToBytes_length _ _).symm]
    rw [rd_mid (x ++ ullToBytes 1 t.h ++ ullToBytes 4 t.nextIdx ++ ullToBytes 1 t.stackusage) (t.node ++
        ((l.map instBytes).flatten ++ z)) (y := ullToBytes 1 t.completed) (by rw [hb']; simp [instBytes])
        (by simp [ullToBytes_length, ho]) (ullToBytes_length _ _).symm]
    rw [rd_mid (x ++ ullToBytes 1 t.h ++ ullToBytes 4 t.nextIdx ++ ullToBytes 1 t.stackusage ++ ullToBytes 1 t.completed)
        ((l.map instBytes).flatten ++ z) (y := t.node) (by rw [hb']; simp [instBytes])
        (by simp [ullToBytes_length, ho]) ht.2.2.2.2.symm]
    simp only [Option.bind_eq_bind, Option.bind_some]
    rw [bytesToUll_ullToBytes (by omega) (by have := ht.1; omega), bytesToUll_ullToBytes (by omega) (by have := ht.2.1; omega),
      bytesToUll_ullToBytes (by omega) (by have := ht.2.2.1; omega), bytesToUll_ullToBytes (by omega) (by have := ht.2.2.2.1; omega)]
    simp only [Option.bind_some]
    rw [hnext]
    simp only [Option.bind_some, Option.some.injEq, Prod.mk.injEq, true_and]
    ring

theorem map_toNat_ofNat {l : List Nat} (h : ∀ x ∈ l, x < 256) : (l.map UInt8.ofNat).map UInt8.toNat = l := by
  rw [List.map_map]
  conv_rhs => rw [← List.map_id l]
  apply List.map_congr_left
  intro x hx
  simp [Nat.mod_eq_of_lt (h x hx)]

theorem chunks_flatten {n : Nat} {l : List Bytes} {k : Nat} (hk : k = l.length) (h : ∀ x ∈ l, x.length = n) :
    chunks n k l.flatten = l := by
  rw [chunks_eq_blocks, hk]
  have := blocks_flatten n l [] h
  rwa [List.append_nil] at this

/-- Reading a state that was written. -/
theorem readState_eq {s : BdsState} (sh : Shape p s) (x z buf : Bytes) (off : Nat) (ho : off = x.length)
    (hb : buf = x ++ stateBytes s ++ z) :
    readState p buf off = some ({ s with leaves := 0 }, off + bdsStateBytes p) := by
  have l1 := flatten_length_of sh.stack_mem
  have l2 := flatten_length_of sh.auth_mem
  have l3 := flatten_length_of sh.keep_mem
  have l4 := flatten_length_of sh.retain_mem
  have l5 := insts_length (p := p) sh.insts_mem
  rw [sh.stack_len] at l1
  rw [sh.auth_len] at l2
  rw [sh.keep_len] at l3
  rw [sh.retain_len] at l4
  rw [sh.insts_len] at l5
  have l6 := sh.levels_len
  have hb' : buf = x ++ (s.stack.flatten ++ ullToBytes 4 s.stackoffset ++ (s.stacklevels.map UInt8.ofNat) ++ s.auth.flatten
    ++ s.keep.flatten ++ (s.treehash.map instBytes).flatten ++ s.retain.flatten ++ ullToBytes 4 s.nextLeaf) ++ z := hb
  rw [readState]
  simp only [Nat.shiftRight_one, Nat.one_shiftLeft]
  rw [rd_mid x (ullToBytes 4 s.stackoffset ++ (s.stacklevels.map UInt8.ofNat) ++ s.auth.flatten ++ s.keep.flatten
    ++ (s.treehash.map instBytes).flatten ++ s.retain.flatten ++ ullToBytes 4 s.nextLeaf ++ z) (y := s.stack.flatten)
    (by rw [hb']; simp only [List.append_assoc]) ho l1.symm]
  rw [rd_mid (x ++ s.stack.flatten) ((s.stacklevels.map UInt8.ofNat) ++ s.auth.flatten ++ s.keep.flatten
    ++ (s.treehash.map instBytes).flatten ++ s.retain.flatten ++ ullToBytes 4 s.nextLeaf ++ z) (y := ullToBytes 4 s.stackoffset)
    (by rw [hb']; simp only [List.append_assoc]) (by rw [List.length_append, l1, ho]) (ullToBytes_length _ _).symm]
  rw [rd_mid (x ++ s.stack.flatten ++ ullToBytes 4 s.stackoffset) (s.auth.flatten ++ s.keep.flatten
    ++ (s.treehash.map instBytes).flatten ++ s.retain.flatten ++ ullToBytes 4 s.nextLeaf ++ z)
    (y := s.stacklevels.map UInt8.ofNat)
    (by rw [hb']; simp only [List.append_assoc]) (by simp only [List.length_append, l1, ho, ullToBytes_length])
    (by rw [List.length_map, l6])]
  rw [rd_mid (x ++ s.stack.flatten ++ ullToBytes 4 s.stackoffset ++ s.stacklevels.map UInt8.ofNat) (s.keep.flatten
    ++ (s.treehash.map instBytes).flatten ++ s.retain.flatten ++ ullToBytes 4 s.nextLeaf ++ z) (y := s.auth.flatten)
    (by rw [hb']; simp only [List.append_assoc])
    (by simp only [List.length_append, l1, ho, ullToBytes_length, List.length_map, l6]) l2.symm]
  rw [rd_mid (x ++ s.stack.flatten ++ ullToBytes 4 s.stackoffset ++ s.stacklevels.map UInt8.ofNat ++ s.auth.flatten)
    ((s.treehash.map instBytes).flatten ++ s.retain.flatten ++ ullToBytes 4 s.nextLeaf ++ z) (y := s.keep.flatten)
    (by rw [hb']; simp only [List.append_assoc])
    (by simp only [List.length_append, l1, l2, ho, ullToBytes_length, List.length_map, l6]) l3.symm]
  have hin := readInsts_eq (p := p) s.treehash
    (x ++ s.stack.flatten ++ ullToBytes 4 s.stackoffset ++ s.stacklevels.map UInt8.ofNat ++ s.auth.flatten ++ s.keep.flatten)
    (s.retain.flatten ++ ullToBytes 4 s.nextLeaf ++ z) buf
    (off + (p.tree_height + 1) * p.n + 4 + (p.tree_height + 1) + p.tree_height * p.n + p.tree_height / 2 * p.n)
    sh.insts_mem (by simp only [List.length_append, l1, l2, l3, ho, ullToBytes_length, List.length_map, l6])
    (by rw [hb']; simp only [List.append_assoc])
  rw [sh.insts_len] at hin
  simp only [Option.bind_eq_bind, Option.bind_some]
  rw [bytesToUll_ullToBytes (by omega) (by have := sh.off_lt; omega)]
  simp only [Option.bind_some]
  rw [hin]
  simp only [Option.bind_some]
  rw [rd_mid (x ++ s.stack.flatten ++ ullToBytes 4 s.stackoffset ++ s.stacklevels.map UInt8.ofNat ++ s.auth.flatten
    ++ s.keep.flatten ++ (s.treehash.map instBytes).flatten) (ullToBytes 4 s.nextLeaf ++ z) (y := s.retain.flatten)
    (by rw [hb']; simp only [List.append_assoc])
    (by simp only [List.length_append, l1, l2, l3, l5, ho, ullToBytes_length, List.length_map, l6]) l4.symm]
  rw [rd_mid (x ++ s.stack.flatten ++ ullToBytes 4 s.stackoffset ++ s.stacklevels.map UInt8.ofNat ++ s.auth.flatten
    ++ s.keep.flatten ++ (s.treehash.map instBytes).flatten ++ s.retain.flatten) z (y := ullToBytes 4 s.nextLeaf)
    (by rw [hb']; simp only [List.append_assoc])
    (by simp only [List.length_append, l1, l2, l3, l4, l5, ho, ullToBytes_length, List.length_map, l6])
    (ullToBytes_length _ _).symm]
  simp only [Option.bind_some]
  rw [bytesToUll_ullToBytes (by omega) (by have := sh.next_lt; omega)]
  simp only [Option.bind_some]
  rw [chunks_flatten sh.stack_len.symm sh.stack_mem, chunks_flatten sh.auth_len.symm sh.auth_mem,
    chunks_flatten sh.keep_len.symm sh.keep_mem, chunks_flatten sh.retain_len.symm sh.retain_mem,
    map_toNat_ofNat sh.levels_mem]
  simp only [Option.some.injEq, Prod.mk.injEq, true_and]
  unfold bdsStateBytes
  rw [show p.tree_height - p.bds_k = p.insts from rfl]
  ring

theorem readStates_eq : ∀ (l : List BdsState) (x z buf : Bytes) (off : Nat), (∀ s ∈ l, Shape p s) → off = x.length →
    buf = x ++ (l.map stateBytes).flatten ++ z →
    readStates p buf l.length off = some (l.map fun s => { s with leaves := 0 }, off + l.length * bdsStateBytes p) := by
  intro l
  induction l with
  | nil => intro x z buf off _ _ _; simp [readStates]
  | cons s l ih =>
    intro x z buf off hl ho hb
    have hs := hl s (by simp)
    have hb' : buf = x ++ stateBytes s ++ ((l.map stateBytes).flatten ++ z) := by rw [hb]; simp
    rw [List.length_cons, readStates, readState_eq hs x _ buf off ho hb']
    simp only [Option.bind_eq_bind, Option.bind_some]
    rw [ih (x ++ stateBytes s) z buf _ (fun s' h => hl s' (by simp [h])) (by
      rw [List.length_append, stateBytes_length hs, ho]) (by rw [hb']; simp)]
    simp only [Option.bind_some, List.map_cons, Option.some.injEq, Prod.mk.injEq, true_and]
    ring

/-- The part of the secret key behind the regular one. -/
def extBytes (states : List BdsState) (sigs : List Bytes) : Bytes := (states.map stateBytes).flatten ++ sigs.flatten

/-- States and stored WOTS signatures fit the parameters. -/
structure ExtShape (p : Params) (states : List BdsState) (sigs : List Bytes) : Prop where
  states_len : states.length = 2 * p.d - 1
  states_mem : ∀ s ∈ states, Shape p s
  sigs_len : sigs.length = p.d - 1
  sigs_mem : ∀ x ∈ sigs, x.length = p.wots_sig_bytes

theorem states_length {states : List BdsState} (h : ∀ s ∈ states, Shape p s) :
    ((states.map stateBytes).flatten).length = states.length * bdsStateBytes p := by
  rw [flatten_length_of (n := bdsStateBytes p), List.length_map]
  intro x hx
  obtain ⟨t, ht, rfl⟩ := List.mem_map.mp hx
  exact stateBytes_length (h t ht)

theorem extBytes_length {states : List BdsState} {sigs : List Bytes} (h : ExtShape p states sigs) :
    (extBytes states sigs).length = (2 * p.d - 1) * bdsStateBytes p + (p.d - 1) * p.wots_sig_bytes := by
  unfold extBytes
  rw [List.length_append, states_length h.states_mem, flatten_length_of h.sigs_mem, h.states_len, h.sigs_len]

theorem deserialize_eq {states : List BdsState} {sigs : List Bytes} (h : ExtShape p states sigs) (x z : Bytes)
    (hx : x.length = p.index_bytes + 4 * p.n) :
    deserializeStates p (x ++ extBytes states sigs ++ z) = some (states.map fun s => { s with leaves := 0 }, sigs) := by
  rw [deserializeStates]
  have h1 := readStates_eq (p := p) states x (sigs.flatten ++ z) (x ++ extBytes states sigs ++ z) (p.index_bytes + 4 * p.n)
    h.states_mem hx.symm (by simp [extBytes])
  rw [h.states_len] at h1
  rw [h1]
  simp only [Option.bind_eq_bind, Option.bind_some]
  rw [rd_mid (x ++ (states.map stateBytes).flatten) z (y := sigs.flatten) (by simp [extBytes])
    (by rw [List.length_append, hx, states_length h.states_mem, h.states_len])
    (by rw [flatten_length_of h.sigs_mem, h.sigs_len])]
  simp only [Option.bind_some]
  rw [chunks_flatten h.sigs_len.symm h.sigs_mem]

theorem serialize_eq {states : List BdsState} {sigs : List Bytes} (x y z : Bytes)
    (hx : x.length = p.index_bytes + 4 * p.n) (hy : y.length = (extBytes states sigs).length) :
    serializeStates p (x ++ y ++ z) states sigs = some (x ++ extBytes states sigs ++ z) := by
  rw [serializeStates]
  exact wr_append x y z (extBytes states sigs) hx.symm hy.symm

/-! ### Reading arbitrary bytes -/

theorem toNat_lt' {b : Bytes} {k : Nat} (h : b.length = k) (hk : k ≤ 8) : ∃ v, bytesToUll b = some v ∧ v < 256 ^ k ∧
    ullToBytes k v = b := by
  refine ⟨_, bytesToUll_eq (by omega), ?_, ?_⟩
  · have := toNat_lt b
    rwa [h] at this
  · rw [ullToBytes_eq, ← h, toByte_toNat]

theorem rd_join {buf x y : Bytes} {off a b off' : Nat} (h1 : rd buf off a = some x) (h2 : rd buf off' b = some y)
    (ho : off' = off + a) : rd buf off (a + b) = some (x ++ y) := by
  subst ho
  unfold rd at *
  split_ifs at h1 with c1
  split_ifs at h2 with c2
  rw [if_pos (by omega)]
  simp only [Option.some.injEq] at *
  rw [← h1, ← h2, List.take_add, List.drop_drop]

theorem rd_len {buf : Bytes} {off len : Nat} (h : off + len ≤ buf.length) : ∃ r, rd buf off len = some r ∧ r.length = len :=
  ⟨_, rd_some h, by simp; omega⟩

theorem chunks_flat {n : Nat} : ∀ {k : Nat} {b : Bytes}, b.length = k * n → (chunks n k b).flatten = b
  | 0, b, h => by
    rw [Nat.zero_mul] at h
    rw [List.eq_nil_of_length_eq_zero h]; rfl
  | k + 1, b, h => by
    rw [Nat.add_mul, one_mul] at h
    rw [chunks, List.flatten_cons, chunks_flat (by rw [List.length_drop]; omega), List.take_append_drop]

theorem map_ofNat_toNat (b : Bytes) : (b.map UInt8.toNat).map UInt8.ofNat = b := by
  rw [List.map_map]
  conv_rhs => rw [← List.map_id b]
  apply List.map_congr_left
  intro x _
  exact UInt8.ofNat_toNat

theorem readInsts_any : ∀ (k off : Nat) (buf : Bytes), off + k * (7 + p.n) ≤ buf.length →
    ∃ l, readInsts p buf k off = some (l, off + k * (7 + p.n)) ∧ l.length = k ∧ (∀ t ∈ l, InstShape p t) ∧
      rd buf off (k * (7 + p.n)) = some (l.map instBytes).flatten := by
  intro k
  induction k with
  | zero => intro off buf _; exact ⟨[], by simp [readInsts], rfl, by simp, by simpa [rd] using ‹off + 0 * (7 + p.n) ≤ buf.length›⟩
  | succ k ih =>
    intro off buf hl
    rw [Nat.add_mul, one_mul] at hl
    obtain ⟨l, e, el, em, eb⟩ := ih (off + 7 + p.n) buf (by omega)
    obtain ⟨b1, e1, n1⟩ := rd_len (buf := buf) (off := off) (len := 1) (by omega)
    obtain ⟨b2, e2, n2⟩ := rd_len (buf := buf) (off := off + 1) (len := 4) (by omega)
    obtain ⟨b3, e3, n3⟩ := rd_len (buf := buf) (off := off + 5) (len := 1) (by omega)
    obtain ⟨b4, e4, n4⟩ := rd_len (buf := buf) (off := off + 6) (len := 1) (by omega)
    obtain ⟨b5, e5, n5⟩ := rd_len (buf := buf) (off := off + 7) (len := p.n) (by omega)
    obtain ⟨v1, f1, g1, t1⟩ := toNat_lt' n1 (by omega)
    obtain ⟨v2, f2, g2, t2⟩ := toNat_lt' n2 (by omega)
    obtain ⟨v3, f3, g3, t3⟩ := toNat_lt' n3 (by omega)
    obtain ⟨v4, f4, g4, t4⟩ := toNat_lt' n4 (by omega)
    refine ⟨⟨v1, v2, v3, v4, b5⟩ :: l, ?_, by simp [el], ?_, ?_⟩
    · rw [readInsts, e1, e2, e3, e4, e5]
      simp only [Option.bind_eq_bind, Option.bind_some, f1, f2, f3, f4, e, Option.some.injEq, Prod.mk.injEq, true_and]
      ring
    · intro t ht
      rcases List.mem_cons.mp ht with rfl | ht
      · exact ⟨by simpa using g1, by simp only; omega, by simpa using g3, by simpa using g4, n5⟩
      · exact em t ht
    · have j := rd_join (rd_join (rd_join (rd_join (rd_join e1 e2 rfl) e3 (by omega)) e4 (by omega)) e5 (by omega)) eb (by omega)
      rw [Nat.add_mul, one_mul, Nat.add_comm (k * (7 + p.n)), List.map_cons, List.flatten_cons, instBytes]
      simp only [t1, t2, t3, t4]
      exact j

theorem readState_any (off : Nat) (buf : Bytes) (h : off + bdsStateBytes p ≤ buf.length) :
    ∃ s, readState p buf off = some (s, off + bdsStateBytes p) ∧ Shape p s ∧ s.leaves = 0 ∧
      rd buf off (bdsStateBytes p) = some (stateBytes s) := by
  have hsb : bdsStateBytes p = (p.tree_height + 1) * p.n + 4 + (p.tree_height + 1) + p.tree_height * p.n +
    (p.tree_height / 2) * p.n + p.insts * (7 + p.n) + (2 ^ p.bds_k - p.bds_k - 1) * p.n + 4 := rfl
  rw [hsb] at h ⊢
  rw [readState]
  simp only [Nat.shiftRight_one, Nat.one_shiftLeft]
  obtain ⟨b1, e1, n1⟩ := rd_len (buf := buf) (off := off) (len := (p.tree_height + 1) * p.n) (by omega)
  rw [e1]
  obtain ⟨o1, ho1⟩ : ∃ o, o = off + (p.tree_height + 1) * p.n := ⟨_, rfl⟩
  rw [← ho1]
  obtain ⟨b2, e2, n2⟩ := rd_len (buf := buf) (off := o1) (len := 4) (by omega)
  rw [e2]
  obtain ⟨b3, e3, n3⟩ := rd_len (buf := buf) (off := o1 + 4) (len := p.tree_height + 1) (by omega)
  rw [e3]
  obtain ⟨o2, ho2⟩ : ∃ o, o = o1 + 4 + (p.tree_height + 1) := ⟨_, rfl⟩
  rw [← ho2]
  obtain ⟨b4, e4, n4⟩ := rd_len (buf := buf) (off := o2) (len := p.tree_height * p.n) (by omega)
  rw [e4]
  obtain ⟨o3, ho3⟩ : ∃ o, o = o2 + p.tree_height * p.n := ⟨_, rfl⟩
  rw [← ho3]
  obtain ⟨b5, e5, n5⟩ := rd_len (buf := buf) (off := o3) (len := p.tree_height / 2 * p.n) (by omega)
  rw [e5]
  obtain ⟨o4, ho4⟩ : ∃ o, o = o3 + p.tree_height / 2 * p.n := ⟨_, rfl⟩
  rw [← ho4]
  obtain ⟨l, e6, el, em, eb⟩ := readInsts_any (p := p) p.insts o4 buf (by omega)
  obtain ⟨o5, ho5⟩ : ∃ o, o = o4 + p.insts * (7 + p.n) := ⟨_, rfl⟩
  obtain ⟨b7, e7, n7⟩ := rd_len (buf := buf) (off := o5) (len := (2 ^ p.bds_k - p.bds_k - 1) * p.n) (by omega)
  obtain ⟨o6, ho6⟩ : ∃ o, o = o5 + (2 ^ p.bds_k - p.bds_k - 1) * p.n := ⟨_, rfl⟩
  obtain ⟨b8, e8, n8⟩ := rd_len (buf := buf) (off := o6) (len := 4) (by omega)
  obtain ⟨v2, f2, g2, t2⟩ := toNat_lt' n2 (by omega)
  obtain ⟨v8, f8, g8, t8⟩ := toNat_lt' n8 (by omega)
  simp only [Option.bind_eq_bind, Option.bind_some, f2, e6]
  rw [← ho5, e7]
  simp only [Option.bind_some]
  rw [← ho6, e8]
  simp only [Option.bind_some, f8]
  have ho7 : o6 + 4 = off + ((p.tree_height + 1) * p.n + 4 + (p.tree_height + 1) + p.tree_height * p.n +
    (p.tree_height / 2) * p.n + p.insts * (7 + p.n) + (2 ^ p.bds_k - p.bds_k - 1) * p.n + 4) := by omega
  rw [ho7]
  refine ⟨_, rfl, ?_, rfl, ?_⟩
  rotate_left
  · have j := rd_join (rd_join (rd_join (rd_join (rd_join (rd_join (rd_join e1 e2 ho1) e3 (by omega)) e4 (by omega)) e5 (by omega))
      eb (by omega)) e7 (by omega)) e8 (by omega)
    rw [j, stateBytes]
    simp only [t2, t8, chunks_flat n1, chunks_flat n4, chunks_flat n5, chunks_flat n7, map_ofNat_toNat]
  refine { stack_len := chunks_length _ _ _, stack_mem := chunks_mem_length n1, levels_len := by simpa using n3,
           levels_mem := ?_, auth_len := chunks_length _ _ _, auth_mem := chunks_mem_length n4,
           keep_len := chunks_length _ _ _, keep_mem := chunks_mem_length n5, insts_len := el, insts_mem := em,
           retain_len := chunks_length _ _ _, retain_mem := chunks_mem_length n7, off_lt := by simp only; omega,
           next_lt := by simp only; omega }
  intro x hx
  obtain ⟨u, _, rfl⟩ := List.mem_map.mp hx
  exact u.toNat_lt

theorem readStates_any : ∀ (k off : Nat) (buf : Bytes), off + k * bdsStateBytes p ≤ buf.length →
    ∃ l, readStates p buf k off = some (l, off + k * bdsStateBytes p) ∧ l.length = k ∧ (∀ s ∈ l, Shape p s ∧ s.leaves = 0) ∧
      rd buf off (k * bdsStateBytes p) = some (l.map stateBytes).flatten := by
  intro k
  induction k with
  | zero => intro off buf _; exact ⟨[], by simp [readStates], rfl, by simp, by simpa [rd] using ‹off + 0 * bdsStateBytes p ≤ buf.length›⟩
  | succ k ih =>
    intro off buf hl
    rw [Nat.add_mul, one_mul] at hl
    obtain ⟨s, e1, sh, hl0, eb0⟩ := readState_any (p := p) off buf (by omega)
    obtain ⟨l, e, el, em, eb⟩ := ih (off + bdsStateBytes p) buf (by omega)
    refine ⟨s :: l, ?_, by simp [el], ?_, ?_⟩
    · rw [readStates, e1]
      simp only [Option.bind_eq_bind, Option.bind_some, e, Option.some.injEq, Prod.mk.injEq, true_and]
      ring
    · intro t ht
      rcases List.mem_cons.mp ht with rfl | ht
      · exact ⟨sh, hl0⟩
      · exact em t ht
    · rw [Nat.add_mul, one_mul, Nat.add_comm (k * bdsStateBytes p), List.map_cons, List.flatten_cons]
      exact rd_join eb0 eb rfl

/-- Every secret key buffer of the right size can be read. -/
theorem deserialize_any (buf : Bytes) (h : fastSkBytes p ≤ buf.length) :
    ∃ states sigs, deserializeStates p buf = some (states, sigs) ∧ ExtShape p states sigs ∧ (∀ s ∈ states, s.leaves = 0) ∧
      rd buf (p.index_bytes + 4 * p.n) ((2 * p.d - 1) * bdsStateBytes p + (p.d - 1) * p.wots_sig_bytes) =
        some (extBytes states sigs) := by
  unfold fastSkBytes at h
  obtain ⟨l, e, el, em, eb⟩ := readStates_any (p := p) (2 * p.d - 1) (p.index_bytes + 4 * p.n) buf (by omega)
  obtain ⟨b, e1, n1⟩ := rd_len (buf := buf) (off := p.index_bytes + 4 * p.n + (2 * p.d - 1) * bdsStateBytes p)
    (len := (p.d - 1) * p.wots_sig_bytes) (by omega)
  refine ⟨l, _, by rw [deserializeStates, e]; simp only [Option.bind_eq_bind, Option.bind_some, e1],
    ⟨el, fun s hs => (em s hs).1, chunks_length _ _ _, chunks_mem_length n1⟩, fun s hs => (em s hs).2, ?_⟩
  rw [extBytes, chunks_flat n1]
  exact rd_join eb e1 rfl

end Xmss
