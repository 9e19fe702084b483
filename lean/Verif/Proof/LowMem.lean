import Verif.Model.Low
import Verif.Proof.Bytes
import Mathlib.Tactic.Ring
/-
Facts about the explicit memory of Model/Low.
-/
namespace Xmss.Low

/-! ### Bytes of objects -/

theorem cells_eq_some {b : Block} {x : Bytes} : cells b = some x ↔ b = x.map some := by
  induction b generalizing x with
  | nil => cases x <;> simp [cells]
  | cons c b ih =>
    cases c with
    | none => cases x <;> simp [cells]
    | some v =>
      cases x with
      | nil => simp [cells]
      | cons y x => simp [cells, ih, and_comm]

theorem read_eq_some {b : Block} {off len : Nat} {x : Bytes} :
    b.read off len = some x ↔ ∃ A B, b = A ++ x.map some ++ B ∧ A.length = off ∧ x.length = len := by
  unfold Block.read
  constructor
  · intro h
    split at h
    · rename_i hl
      rw [cells_eq_some] at h
      refine ⟨b.take off, b.drop (off + len), ?_, by simp; omega, ?_⟩
      · rw [← h, List.append_assoc, ← List.drop_drop, List.take_append_drop, List.take_append_drop]
      · have := congrArg List.length h
        simp at this; omega
    · cases h
  · rintro ⟨A, B, rfl, rfl, rfl⟩
    rw [if_pos (by simp), cells_eq_some]
    simp

theorem write_eq_some {b b' : Block} {off : Nat} {x : Bytes} :
    b.write off x = some b' ↔
      ∃ A X B, b = A ++ X ++ B ∧ A.length = off ∧ X.length = x.length ∧ b' = A ++ x.map some ++ B := by
  unfold Block.write
  constructor
  · intro h
    split at h
    · rename_i hl
      refine ⟨b.take off, (b.drop off).take x.length, b.drop (off + x.length), ?_, by simp; omega, by simp; omega, ?_⟩
      · rw [List.append_assoc, ← List.drop_drop, List.take_append_drop, List.take_append_drop]
      · exact (Option.some.inj h).symm
    · cases h
  · rintro ⟨A, X, B, rfl, rfl, hX, rfl⟩
    rw [if_pos (by simp; omega)]
    rw [← hX, List.append_assoc A X B, List.take_left, ← List.append_assoc, List.drop_left' (by simp)]

/-- Writing and then writing right behind it. -/
theorem write_append (b : Block) (off : Nat) (x y : Bytes) :
    (b.write off x).bind (fun b' => b'.write (off + x.length) y) = b.write off (x ++ y) := by
  unfold Block.write
  by_cases h : off + x.length + y.length ≤ b.length
  · rw [if_pos (by omega), Option.bind_some, if_pos (by simp; omega), if_pos (by simp; omega)]
    have h1 : (b.take off).length = off := by simp; omega
    congr 1
    have : (List.take off b ++ List.map some x ++ List.drop (off + x.length) b).take (off + x.length) =
        List.take off b ++ List.map some x := List.take_left' (by simp; omega)
    rw [this]
    have h2 : (List.take off b ++ List.map some x ++ List.drop (off + x.length) b).drop (off + x.length + y.length) =
        b.drop (off + (x ++ y).length) := by
      rw [← List.drop_drop, List.drop_left' (by simp; omega), List.drop_drop, List.length_append]
      congr 1; omega
    rw [h2]
    simp
  · rw [if_neg (c := off + (x ++ y).length ≤ b.length) (by simp; omega)]
    split
    · rw [Option.bind_some, if_neg (by simp; omega)]
    · rfl

theorem write_length {b b' : Block} {off : Nat} {x : Bytes} (h : b.write off x = some b') : b'.length = b.length := by
  obtain ⟨A, X, B, rfl, _, h2, rfl⟩ := write_eq_some.mp h
  simp [h2]

theorem write_mid {b b' : Block} {off : Nat} {A B C B' : Bytes} (h : b.write off (A ++ B ++ C) = some b')
    (hl : B'.length = B.length) : b'.write (off + A.length) B' = b.write off (A ++ B' ++ C) := by
  obtain ⟨U, X, V, rfl, rfl, h2, rfl⟩ := write_eq_some.mp h
  have e1 : (U ++ X ++ V).write U.length (A ++ B' ++ C) = some (U ++ (A ++ B' ++ C).map some ++ V) :=
    write_eq_some.mpr ⟨U, X, V, rfl, rfl, by rw [h2]; simp [hl], rfl⟩
  rw [e1]
  exact write_eq_some.mpr ⟨U ++ A.map some, B.map some, C.map some ++ V, by simp, by simp, by simp [hl], by simp⟩

theorem read_write {b b' : Block} {off : Nat} {A B C : Bytes} (h : b.write off (A ++ B ++ C) = some b') :
    b'.read (off + A.length) B.length = some B := by
  obtain ⟨U, X, V, rfl, rfl, h2, rfl⟩ := write_eq_some.mp h
  exact read_eq_some.mpr ⟨U ++ A.map some, C.map some ++ V, by simp, by simp, rfl⟩

theorem read_write_disj {b b' : Block} {off off' len : Nat} {x : Bytes} (h : b.write off x = some b')
    (hd : off' + len ≤ off ∨ off + x.length ≤ off') : b'.read off' len = b.read off' len := by
  have hl := write_length h
  unfold Block.write at h
  split at h
  · rename_i hb
    cases h
    unfold Block.read
    rw [hl]
    split
    · rename_i hc
      congr 1
      apply List.ext_getElem?
      intro i
      rw [List.getElem?_take, List.getElem?_take]
      split
      · rename_i hi
        rw [List.getElem?_drop, List.getElem?_drop]
        rcases hd with hd | hd
        · rw [List.append_assoc, List.getElem?_append_left (by simp; omega), List.getElem?_take, if_pos (by omega)]
        · rw [List.getElem?_append_right (by simp; omega), List.getElem?_drop]
          congr 1; simp; omega
      · rfl
    · rfl
  · cases h

theorem read_sub {b : Block} {off len : Nat} {A B C : Bytes} (h : b.read off len = some (A ++ B ++ C)) :
    b.read (off + A.length) B.length = some B := by
  obtain ⟨U, V, rfl, rfl, _⟩ := read_eq_some.mp h
  exact read_eq_some.mpr ⟨U ++ A.map some, C.map some ++ V, by simp, by simp, rfl⟩

theorem write_comm {b b1 b2 : Block} {o1 o2 : Nat} {x y : Bytes} (h1 : b.write o1 x = some b1) (h2 : b1.write o2 y = some b2)
    (hd : o1 + x.length ≤ o2 ∨ o2 + y.length ≤ o1) : ∃ b1', b.write o2 y = some b1' ∧ b1'.write o1 x = some b2 := by
  have l1 := write_length h1
  have l2 := write_length h2
  have hb1 : o1 + x.length ≤ b.length := by unfold Block.write at h1; split at h1 <;> [assumption; cases h1]
  have hb2 : o2 + y.length ≤ b.length := by
    unfold Block.write at h2; split at h2
    · rename_i h; rw [l1] at h; exact h
    · cases h2
  unfold Block.write at *
  rw [if_pos hb1] at h1
  cases h1
  rw [if_pos (by rw [l1]; exact hb2)] at h2
  cases h2
  refine ⟨_, by rw [if_pos hb2], ?_⟩
  rw [if_pos (by simp; omega)]
  congr 1
  apply List.ext_getElem?
  intro i
  simp only [List.getElem?_append, List.getElem?_take, List.getElem?_drop, List.length_append, List.length_take, List.length_map,
    List.length_drop, List.getElem?_map]
  repeat' split
  all_goals first | omega | rfl | (congr 2; omega) | (congr 1; omega)

/-! ### Pointers -/

@[simp] theorem add_blk (q : Ptr) (k : Nat) : (q + k).blk = q.blk := rfl
@[simp] theorem add_off (q : Ptr) (k : Nat) : (q + k).off = q.off + k := rfl
theorem add_add (q : Ptr) (a b : Nat) : q + a + b = q + (a + b) := by
  show (⟨_, _⟩ : Ptr) = ⟨_, _⟩; simp [Nat.add_assoc]
@[simp] theorem add_zero' (q : Ptr) : q + 0 = q := rfl
@[simp] theorem mk_add (b o k : Nat) : (⟨b, o⟩ : Ptr) + k = ⟨b, o + k⟩ := rfl

/-- Two ranges of memory do not overlap. -/
def Disj (q : Ptr) (a : Nat) (r : Ptr) (b : Nat) : Prop := q.blk ≠ r.blk ∨ q.off + a ≤ r.off ∨ r.off + b ≤ q.off

theorem Disj.symm {q r : Ptr} {a b : Nat} (h : Disj q a r b) : Disj r b q a := by
  unfold Disj at *; omega

theorem Disj.of_blk {q r : Ptr} {a b : Nat} (h : q.blk ≠ r.blk) : Disj q a r b := Or.inl h

theorem load_blk {m : Mem} {q : Ptr} {len : Nat} {x : Bytes} (h : load m q len = some x) : q.blk < m.length := by
  unfold load at h
  obtain ⟨b, hb, _⟩ := Option.bind_eq_some_iff.mp h
  exact (List.getElem?_eq_some_iff.mp hb).1

theorem load_length {m : Mem} {q : Ptr} {len : Nat} {x : Bytes} (h : load m q len = some x) : x.length = len := by
  unfold load at h
  obtain ⟨b, hb, hr⟩ := Option.bind_eq_some_iff.mp h
  obtain ⟨_, _, _, _, h⟩ := read_eq_some.mp hr
  exact h

theorem store_eq_some {m m' : Mem} {q : Ptr} {x : Bytes} :
    store m q x = some m' ↔ ∃ b b', m[q.blk]? = some b ∧ b.write q.off x = some b' ∧ m' = m.set q.blk b' := by
  simp only [store, Option.bind_eq_bind, Option.bind_eq_some_iff, Option.some.injEq]
  constructor
  · rintro ⟨b, h1, b', h2, rfl⟩; exact ⟨b, b', h1, h2, rfl⟩
  · rintro ⟨b, b', h1, h2, rfl⟩; exact ⟨b, h1, b', h2, rfl⟩

theorem store_blk {m m' : Mem} {q : Ptr} {x : Bytes} (h : store m q x = some m') : q.blk < m.length := by
  obtain ⟨b, b', h1, _, _⟩ := store_eq_some.mp h
  exact (List.getElem?_eq_some_iff.mp h1).1

theorem store_length {m m' : Mem} {q : Ptr} {x : Bytes} (h : store m q x = some m') : m'.length = m.length := by
  obtain ⟨b, b', _, _, rfl⟩ := store_eq_some.mp h
  simp

/-- Two stores right behind each other are one. -/
theorem store_append (m : Mem) (q : Ptr) (x y : Bytes) :
    (store m q x).bind (fun m' => store m' (q + x.length) y) = store m q (x ++ y) := by
  unfold store
  cases h : m[q.blk]? with
  | none => rfl
  | some b =>
    have hlt := (List.getElem?_eq_some_iff.mp h).1
    simp only [Option.bind_eq_bind, Option.bind_some]
    rw [← write_append]
    cases h2 : b.write q.off x with
    | none => rfl
    | some b' =>
      simp only [Option.bind_some, add_blk, add_off]
      rw [List.getElem?_set_self hlt]
      simp only [Option.bind_some, List.set_set]

theorem store_append' {m m' : Mem} {q : Ptr} {x y : Bytes} (h : store m q x = some m') :
    store m' (q + x.length) y = store m q (x ++ y) := by
  rw [← store_append, h, Option.bind_some]

theorem store_mid {m m' : Mem} {q : Ptr} {A B C B' : Bytes} (h : store m q (A ++ B ++ C) = some m')
    (hl : B'.length = B.length) : store m' (q + A.length) B' = store m q (A ++ B' ++ C) := by
  obtain ⟨b, b', h1, h2, rfl⟩ := store_eq_some.mp h
  have hlt := (List.getElem?_eq_some_iff.mp h1).1
  simp only [store, add_blk, add_off, Option.bind_eq_bind, h1, Option.bind_some, List.getElem?_set_self hlt, write_mid h2 hl,
    List.set_set]

theorem load_store {m m' : Mem} {q : Ptr} {A B C : Bytes} (h : store m q (A ++ B ++ C) = some m') :
    load m' (q + A.length) B.length = some B := by
  obtain ⟨b, b', h1, h2, rfl⟩ := store_eq_some.mp h
  have hlt := (List.getElem?_eq_some_iff.mp h1).1
  simp only [load, add_blk, add_off, Option.bind_eq_bind, List.getElem?_set_self hlt, Option.bind_some]
  exact read_write h2

theorem load_store_self {m m' : Mem} {q : Ptr} {x : Bytes} (h : store m q x = some m') : load m' q x.length = some x := by
  have := load_store (m := m) (m' := m') (q := q) (A := []) (B := x) (C := []) (by simpa using h)
  simpa using this

theorem load_store_disj {m m' : Mem} {q r : Ptr} {x : Bytes} {len : Nat} (h : store m q x = some m')
    (hd : Disj r len q x.length) : load m' r len = load m r len := by
  obtain ⟨b, b', h1, h2, rfl⟩ := store_eq_some.mp h
  have hlt := (List.getElem?_eq_some_iff.mp h1).1
  unfold load
  by_cases hb : r.blk = q.blk
  · rw [hb, List.getElem?_set_self hlt, h1]
    exact read_write_disj h2 (by unfold Disj at hd; omega)
  · rw [List.getElem?_set_ne (Ne.symm hb)]

theorem load_sub {m : Mem} {q : Ptr} {len : Nat} {A B C : Bytes} (h : load m q len = some (A ++ B ++ C)) :
    load m (q + A.length) B.length = some B := by
  unfold load at *
  obtain ⟨b, h1, h2⟩ := Option.bind_eq_some_iff.mp h
  rw [add_blk, h1]
  exact read_sub h2

theorem load_sub' {m : Mem} {q : Ptr} {len : Nat} {x : Bytes} (h : load m q len = some x) (off k : Nat) (hk : off + k ≤ len) :
    load m (q + off) k = some ((x.drop off).take k) := by
  have hl := load_length h
  have e : x = x.take off ++ (x.drop off).take k ++ x.drop (off + k) := by
    rw [List.append_assoc, ← List.drop_drop, List.take_append_drop, List.take_append_drop]
  rw [e] at h
  have := load_sub h
  rwa [List.length_take, List.length_take, List.length_drop, show min off x.length = off by omega,
    show min k (x.length - off) = k by omega] at this

theorem load_join {m : Mem} {q : Ptr} {a b : Nat} {x y : Bytes} (h1 : load m q a = some x) (h2 : load m (q + a) b = some y) :
    load m q (a + b) = some (x ++ y) := by
  unfold load at *
  obtain ⟨c, h3, h4⟩ := Option.bind_eq_some_iff.mp h1
  rw [add_blk, h3] at h2
  rw [h3]
  simp only [Option.bind_eq_bind, Option.bind_some] at h2 ⊢
  unfold Block.read at *
  split at h4
  · split at h2
    · rename_i c1 c2
      simp only [add_off] at c2 h2
      rw [if_pos (by omega), cells_eq_some]
      rw [cells_eq_some] at h4 h2
      rw [List.map_append, ← h4, ← h2, List.take_add, List.drop_drop]
    · cases h2
  · cases h4

theorem store_comm {m : Mem} {q r : Ptr} {x y : Bytes} (hd : Disj q x.length r y.length) :
    (store m q x).bind (fun m' => store m' r y) = (store m r y).bind (fun m' => store m' q x) := by
  have key : ∀ {q r : Ptr} {x y : Bytes} {m1 m2 : Mem}, Disj q x.length r y.length → store m q x = some m1 →
      store m1 r y = some m2 → (store m r y).bind (fun m' => store m' q x) = some m2 := by
    intro q r x y m1 m2 hd h1 h2
    obtain ⟨b, b', e1, e2, rfl⟩ := store_eq_some.mp h1
    obtain ⟨c, c', f1, f2, rfl⟩ := store_eq_some.mp h2
    have hlt := (List.getElem?_eq_some_iff.mp e1).1
    by_cases hb : r.blk = q.blk
    · rw [hb, List.getElem?_set_self hlt] at f1
      cases f1
      obtain ⟨b1, g1, g2⟩ := write_comm e2 f2 (by unfold Disj at hd; omega)
      have a1 : store m r y = some (m.set q.blk b1) := store_eq_some.mpr ⟨b, b1, by rw [hb]; exact e1, g1, by rw [hb]⟩
      rw [a1, Option.bind_some]
      exact store_eq_some.mpr ⟨b1, c', List.getElem?_set_self hlt, g2, by rw [hb]; simp⟩
    · rw [List.getElem?_set_ne (Ne.symm hb)] at f1
      have a1 : store m r y = some (m.set r.blk c') := store_eq_some.mpr ⟨c, c', f1, f2, rfl⟩
      rw [a1, Option.bind_some]
      exact store_eq_some.mpr ⟨b, b', by rw [List.getElem?_set_ne hb]; exact e1, e2, by rw [List.set_comm _ _ hb]⟩
  cases h1 : (store m q x).bind (fun m' => store m' r y) with
  | some m2 =>
    obtain ⟨m1, h2, h3⟩ := Option.bind_eq_some_iff.mp h1
    exact (key hd h2 h3).symm
  | none =>
    cases h2 : (store m r y).bind (fun m' => store m' q x) with
    | none => rfl
    | some m2 =>
      obtain ⟨m1, h3, h4⟩ := Option.bind_eq_some_iff.mp h2
      rw [key hd.symm h3 h4] at h1
      cases h1

/-! ### Local arrays -/

theorem load_left {m L : Mem} {q : Ptr} {len : Nat} (h : q.blk < m.length) : load (m ++ L) q len = load m q len := by
  unfold load; rw [List.getElem?_append_left h]

theorem store_left {m L : Mem} {q : Ptr} {x : Bytes} (h : q.blk < m.length) :
    store (m ++ L) q x = (store m q x).map (· ++ L) := by
  unfold store
  rw [List.getElem?_append_left h]
  cases m[q.blk]? with
  | none => rfl
  | some b =>
    simp only [Option.bind_eq_bind, Option.bind_some]
    cases b.write q.off x with
    | none => rfl
    | some b' => simp only [Option.bind_some, Option.map_some, List.set_append_left _ _ h]

theorem load_right {m L : Mem} {k off len : Nat} : load (m ++ L) ⟨m.length + k, off⟩ len = load L ⟨k, off⟩ len := by
  unfold load
  rw [List.getElem?_append_right (by simp)]
  simp

theorem store_right {m L : Mem} {k off : Nat} {x : Bytes} :
    store (m ++ L) ⟨m.length + k, off⟩ x = (store L ⟨k, off⟩ x).map (m ++ ·) := by
  unfold store
  rw [List.getElem?_append_right (by simp)]
  simp only [Nat.add_sub_cancel_left]
  cases L[k]? with
  | none => rfl
  | some b =>
    simp only [Option.bind_eq_bind, Option.bind_some]
    cases b.write off x with
    | none => rfl
    | some b' => simp [List.set_append_right]

theorem load_right0 {m L : Mem} {off len : Nat} : load (m ++ L) ⟨m.length, off⟩ len = load L ⟨0, off⟩ len :=
  load_right (k := 0)

theorem store_right0 {m L : Mem} {off : Nat} {x : Bytes} :
    store (m ++ L) ⟨m.length, off⟩ x = (store L ⟨0, off⟩ x).map (m ++ ·) := store_right (k := 0)

@[simp] theorem load_cons_zero {b : Block} {L : Mem} {off len : Nat} : load (b :: L) ⟨0, off⟩ len = b.read off len := rfl
@[simp] theorem load_cons_succ {b : Block} {L : Mem} {k off len : Nat} : load (b :: L) ⟨k + 1, off⟩ len = load L ⟨k, off⟩ len :=
  rfl
@[simp] theorem store_cons_zero {b : Block} {L : Mem} {off : Nat} {x : Bytes} :
    store (b :: L) ⟨0, off⟩ x = (b.write off x).map (· :: L) := by
  simp only [store, List.getElem?_cons_zero, Option.bind_eq_bind, Option.bind_some]
  cases b.write off x <;> rfl
@[simp] theorem store_cons_succ {b : Block} {L : Mem} {k off : Nat} {x : Bytes} :
    store (b :: L) ⟨k + 1, off⟩ x = (store L ⟨k, off⟩ x).map (b :: ·) := by
  simp only [store, List.getElem?_cons_succ, Option.bind_eq_bind]
  cases L[k]? with
  | none => rfl
  | some c =>
    simp only [Option.bind_some]
    cases c.write off x <;> rfl

theorem release_append {m0 m L : Mem} (h : m.length = m0.length) : release m0 (m ++ L) = m := by
  unfold release; rw [← h, List.take_left]

theorem alloc_pos {m : Mem} {len : Nat} (h : 0 < len) :
    alloc m len = some (⟨m.length, 0⟩, m ++ [List.replicate len none]) := by
  unfold alloc; rw [if_neg (by omega)]

/-- A local array of `L` bytes whose first bytes are `x`, the rest uninitialised. -/
def part (L : Nat) (x : Bytes) : Block := x.map some ++ List.replicate (L - x.length) none

theorem part_nil (L : Nat) : part L [] = List.replicate L none := by simp [part]

theorem part_full {L : Nat} {x : Bytes} (h : x.length = L) : part L x = x.map some := by simp [part, h]

theorem write_part {L off : Nat} {x y : Bytes} (h : off = x.length) (h2 : x.length + y.length ≤ L) :
    (part L x).write off y = some (part L (x ++ y)) := by
  subst h
  refine write_eq_some.mpr ⟨x.map some, List.replicate y.length none, List.replicate (L - x.length - y.length) none, ?_, by simp,
    by simp, ?_⟩
  · simp only [part, List.append_assoc, List.replicate_append_replicate]
    congr 2; omega
  · simp [part, Nat.sub_sub]

theorem read_map {x : Bytes} {off len : Nat} : Block.read (x.map some) off len = rd x off len := by
  unfold Block.read rd
  simp only [List.length_map]
  split
  · rw [cells_eq_some]; simp
  · rfl

theorem read_full {x : Bytes} {len : Nat} (h : x.length = len) : Block.read (x.map some) 0 len = some x := by
  rw [read_map, rd, if_pos (by omega)]
  simp [← h]

theorem write_full {b : Block} {x : Bytes} (h : x.length = b.length) : b.write 0 x = some (x.map some) := by
  unfold Block.write
  rw [if_pos (by omega)]
  simp [h]

/-! ### Integers -/

theorem w32_lt {x : Nat} (h : x < 2 ^ 32) : w32 x = x := Nat.mod_eq_of_lt h
theorem w64_lt {x : Nat} (h : x < 2 ^ 64) : w64 x = x := Nat.mod_eq_of_lt h
theorem usub_eq {a b : Nat} (h : b ≤ a) (ha : a < 2 ^ 32) : usub a b = a - b := by
  unfold usub
  omega
theorem asInt_lt {u : Nat} (h : u < 2 ^ 31) : asInt u = (u : Int) := by
  unfold asInt
  rw [Nat.mod_eq_of_lt (by omega), if_pos h]
theorem ofInt_nat {u : Nat} (h : u < 2 ^ 32) : ofInt (u : Int) = u := by
  unfold ofInt; omega
theorem ofInt64_nat {u : Nat} (h : u < 2 ^ 64) : ofInt64 (u : Int) = u := by
  unfold ofInt64; omega

/-! ### memcpy -/

theorem memcpy_eq {m : Mem} {dst src : Ptr} {len : Nat} {x : Bytes} (h : load m src len = some x) (hd : Disj dst len src len) :
    memcpy m dst src len = store m dst x := by
  unfold memcpy
  rw [if_neg (by unfold Disj at hd; omega), h]
  rfl

theorem memcpy_same {m : Mem} {q : Ptr} {len : Nat} {x : Bytes} (h : load m q len = some x) :
    memcpy m q q len = store m q x := by
  unfold memcpy
  rw [if_neg (by omega), h]
  rfl

/-- Storing what is already there. -/
theorem store_load {m : Mem} {q : Ptr} {len : Nat} {x : Bytes} (h : load m q len = some x) : store m q x = some m := by
  unfold load at h
  obtain ⟨b, h1, h2⟩ := Option.bind_eq_some_iff.mp h
  obtain ⟨A, B, e, h3, h4⟩ := read_eq_some.mp h2
  refine store_eq_some.mpr ⟨b, b, h1, ?_, ?_⟩
  · exact write_eq_some.mpr ⟨A, x.map some, B, e, h3, by simp, e⟩
  · obtain ⟨hlt, e⟩ := List.getElem?_eq_some_iff.mp h1
    rw [← e, List.set_getElem_self]

theorem store_over {m m' : Mem} {q : Ptr} {x y : Bytes} (h : store m q x = some m') (hl : y.length = x.length) :
    store m' q y = store m q y := by
  have := store_mid (m := m) (m' := m') (q := q) (A := []) (B := x) (C := []) (B' := y) (by simpa using h) hl
  simpa using this

theorem store_same_length {m m' : Mem} {q : Ptr} {x y : Bytes} (h : store m q x = some m') (hl : y.length = x.length) :
    ∃ m'', store m q y = some m'' := by
  obtain ⟨b, b', h1, h2, rfl⟩ := store_eq_some.mp h
  obtain ⟨A, X, B, rfl, h3, h4, rfl⟩ := write_eq_some.mp h2
  exact ⟨_, store_eq_some.mpr ⟨_, _, h1, write_eq_some.mpr ⟨A, X, B, rfl, h3, by omega, rfl⟩, rfl⟩⟩

theorem store_append_none {m : Mem} {q : Ptr} {x : Bytes} (h : store m q x = none) (y : Bytes) : store m q (x ++ y) = none := by
  rw [← store_append, h]; rfl

/-- Every range inside a range that was stored is a valid range. -/
theorem store_nil {m m' : Mem} {q : Ptr} {A B : Bytes} (h : store m q (A ++ B) = some m') : store m' (q + A.length) [] = some m' := by
  have := store_mid (m := m) (m' := m') (q := q) (A := A) (B := []) (C := B) (B' := []) (by simpa using h) rfl
  simpa [h] using this

theorem Disj.mono {q r : Ptr} {a b a' b' : Nat} (h : Disj q a r b) (ha : a' ≤ a) (hb : b' ≤ b) : Disj q a' r b' := by
  unfold Disj at *; omega

theorem Disj.sub {q r : Ptr} {a b : Nat} (h : Disj q a r b) (o k : Nat) (hb : o + k ≤ b) : Disj q a (r + o) k := by
  unfold Disj at *; simp only [add_blk, add_off]; omega

theorem Disj.sub_left {q r : Ptr} {a b : Nat} (h : Disj q a r b) (o k : Nat) (hb : o + k ≤ a) : Disj (q + o) k r b := by
  unfold Disj at *; simp only [add_blk, add_off]; omega

end Xmss.Low
