import Verif.Proof.LowKeypair
import Verif.Spec.Memory
/-
The operations on memory in terms of Spec/Memory.
-/
namespace Xmss.Low

theorem holds_iff {m : Mem} {q : Ptr} {x : Bytes} : Holds m q x ↔ load m q x.length = some x := by
  unfold Holds Room load
  constructor
  · rintro ⟨⟨o, h1, h2⟩, h3⟩
    simp only [h1, Option.bind_eq_bind, Option.bind_some]
    refine read_eq_some.mpr ⟨o.take q.off, o.drop (q.off + x.length), ?_, by simp; omega, rfl⟩
    have : (o.drop q.off).take x.length = x.map some := by
      apply List.ext_getElem?
      intro i
      rw [List.getElem?_take, List.getElem?_map]
      split
      · rename_i hi
        have h := h3 i x[i] (List.getElem?_eq_getElem hi)
        rw [cell, h1, Option.bind_some] at h
        rw [List.getElem?_drop, h, List.getElem?_eq_getElem hi]; rfl
      · rw [List.getElem?_eq_none (by omega)]; rfl
    rw [← this, List.append_assoc, ← List.drop_drop, List.take_append_drop, List.take_append_drop]
  · intro h
    obtain ⟨o, h1, h2⟩ := Option.bind_eq_some_iff.mp h
    obtain ⟨A, B, rfl, hA, _⟩ := read_eq_some.mp h2
    refine ⟨⟨_, h1, by simp; omega⟩, ?_⟩
    intro i v hi
    rw [cell, h1, Option.bind_some]
    have hl := (List.getElem?_eq_some_iff.mp hi).1
    rw [List.append_assoc, List.getElem?_append_right (by omega), List.getElem?_append_left (by simp; omega), List.getElem?_map]
    have : q.off + i - A.length = i := by omega
    rw [this, hi]; rfl

theorem Holds.load {m : Mem} {q : Ptr} {x : Bytes} (h : Holds m q x) {n : Nat} (hn : x.length = n) : load m q n = some x := by
  rw [← hn]; exact holds_iff.mp h

theorem Holds.of_load {m : Mem} {q : Ptr} {x : Bytes} {n : Nat} (h : Low.load m q n = some x) : Holds m q x := by
  rw [holds_iff, load_length h]; exact h

theorem onlyIn_refl (m : Mem) (rs : List (Ptr × Nat)) : OnlyIn m m rs := ⟨rfl, fun _ _ _ => rfl⟩

theorem OnlyIn.trans {m1 m2 m3 : Mem} {a b c : List (Ptr × Nat)} (h1 : OnlyIn m1 m2 a) (h2 : OnlyIn m2 m3 b)
    (ha : ∀ x i, Within a x i → Within c x i) (hb : ∀ x i, Within b x i → Within c x i) : OnlyIn m1 m3 c :=
  ⟨h2.1.trans h1.1, fun x i h => (h2.2 x i fun h' => h (hb x i h')).trans (h1.2 x i fun h' => h (ha x i h'))⟩

theorem OnlyIn.mono {m1 m2 : Mem} {a c : List (Ptr × Nat)} (h1 : OnlyIn m1 m2 a)
    (ha : ∀ x i, Within a x i → Within c x i) : OnlyIn m1 m2 c :=
  ⟨h1.1, fun x i h => h1.2 x i fun h' => h (ha x i h')⟩

theorem storeC_onlyIn {m m' : Mem} {q : Ptr} {C : Block} (h : storeC m q C = some m') : OnlyIn m m' [(q, C.length)] := by
  obtain ⟨U, X, V, h1, h2, h3, rfl⟩ := storeC_eq_some.mp h
  have hlt := (List.getElem?_eq_some_iff.mp h1).1
  refine ⟨?_, ?_⟩
  · rw [List.map_set]
    apply List.ext_getElem?
    intro i
    by_cases e : q.blk = i
    · subst e
      rw [List.getElem?_set_self (by simpa using hlt), List.getElem?_map, h1]
      simp [h3]
    · rw [List.getElem?_set_ne e]
  intro b i hw
  unfold cell
  by_cases e : b = q.blk
  · subst e
    rw [List.getElem?_set_self hlt, h1, Option.bind_some, Option.bind_some]
    have hn : ¬ (q.off ≤ i ∧ i < q.off + C.length) := fun h' => hw ⟨_, List.mem_singleton.mpr rfl, rfl, h'⟩
    by_cases hi : i < q.off
    · rw [List.append_assoc, List.append_assoc, List.getElem?_append_left (by omega), List.getElem?_append_left (by omega)]
    · rw [List.getElem?_append_right (by simp; omega), List.getElem?_append_right (by simp; omega)]
      congr 1; simp; omega
  · rw [List.getElem?_set_ne (by omega)]

theorem store_onlyIn {m m' : Mem} {q : Ptr} {x : Bytes} (h : store m q x = some m') : OnlyIn m m' [(q, x.length)] := by
  rw [← storeC_map] at h
  have := storeC_onlyIn h
  rwa [List.length_map] at this

theorem within_one {q : Ptr} {len x i : Nat} : Within [(q, len)] x i ↔ x = q.blk ∧ q.off ≤ i ∧ i < q.off + len := by
  simp [Within]

theorem within_cons {q : Ptr} {len x i : Nat} {rs : List (Ptr × Nat)} :
    Within ((q, len) :: rs) x i ↔ (x = q.blk ∧ q.off ≤ i ∧ i < q.off + len) ∨ Within rs x i := by
  simp [Within]

theorem within_nil {x i : Nat} : ¬ Within [] x i := by simp [Within]

theorem Room.keep {m m' : Mem} {q : Ptr} {len : Nat} {rs : List (Ptr × Nat)} (h : Room m q len) (ho : OnlyIn m m' rs) :
    Room m' q len := by
  obtain ⟨o, h1, h2⟩ := h
  have := congrArg (fun l => l[q.blk]?) ho.1
  simp only [List.getElem?_map, h1, Option.map_some] at this
  obtain ⟨o', e1, e2⟩ := Option.map_eq_some_iff.mp this
  exact ⟨o', e1, by omega⟩

theorem Holds.keep {m m' : Mem} {q : Ptr} {x : Bytes} {rs : List (Ptr × Nat)} (h : Holds m q x) (ho : OnlyIn m m' rs)
    (hd : ∀ r ∈ rs, Apart q x.length r.1 r.2) : Holds m' q x := by
  refine ⟨h.1.keep ho, ?_⟩
  intro i v hi
  have hl := (List.getElem?_eq_some_iff.mp hi).1
  rw [ho.2, h.2 i v hi]
  rintro ⟨r, hm, h1, h2, h3⟩
  have := hd r hm
  unfold Apart at this
  omega

theorem Holds.append {m : Mem} {q : Ptr} {x y : Bytes} (hx : Holds m q x) (hy : Holds m (q + x.length) y) :
    Holds m q (x ++ y) := by
  rw [holds_iff] at hx hy ⊢
  rw [List.length_append]
  exact load_join hx hy

theorem Holds.left {m : Mem} {q : Ptr} {x y : Bytes} (h : Holds m q (x ++ y)) : Holds m q x := by
  rw [holds_iff] at h ⊢
  exact load_sub (A := []) (B := x) (C := y) (by simpa using h)

theorem Holds.right {m : Mem} {q : Ptr} {x y : Bytes} (h : Holds m q (x ++ y)) : Holds m (q + x.length) y := by
  rw [holds_iff] at h ⊢
  exact load_sub (A := x) (B := y) (C := []) (by simpa using h)

theorem store_holds {m m' : Mem} {q : Ptr} {x : Bytes} (h : store m q x = some m') : Holds m' q x :=
  holds_iff.mpr (load_store_self h)

theorem store_holds_disj {m m' : Mem} {q r : Ptr} {x y : Bytes} (h : store m q x = some m') (hy : Holds m r y)
    (hd : Apart r y.length q x.length) : Holds m' r y := by
  rw [holds_iff] at hy ⊢
  rw [load_store_disj h hd]; exact hy

end Xmss.Low
