import Verif.Proof.LowKeccak
/-
What fips202.c reads: a run of shake128 or shake256 that is defined has read every byte of its input.
-/
namespace Xmss.Low

theorem load64Loop_reads {m : Mem} {x : Ptr} : ∀ (k i : Nat) (r v : Lane), load64Loop m x (k + 1) i r = some v →
    ∃ y, load m (x + i) (k + 1) = some y := by
  intro k
  induction k with
  | zero =>
    intro i r v h
    rw [load64Loop, Option.bind_eq_bind] at h
    obtain ⟨b, h1, _⟩ := Option.bind_eq_some_iff.mp h
    exact ⟨b, h1⟩
  | succ k ih =>
    intro i r v h
    rw [load64Loop, Option.bind_eq_bind] at h
    obtain ⟨b, h1, h2⟩ := Option.bind_eq_some_iff.mp h
    obtain ⟨y, h3⟩ := ih _ _ _ h2
    refine ⟨b ++ y, ?_⟩
    rw [Nat.add_comm (k + 1) 1]
    exact load_join h1 (by rw [add_add]; exact h3)

theorem xorBlock_reads {m : Mem} {q : Ptr} : ∀ (k i : Nat) (s s' : LaneArr), xorBlock m q (k + 1) i s = some s' →
    ∃ y, load m (q + 8 * i) (8 * (k + 1)) = some y := by
  intro k
  induction k with
  | zero =>
    intro i s s' h
    rw [xorBlock, Option.bind_eq_bind] at h
    obtain ⟨b, h1, _⟩ := Option.bind_eq_some_iff.mp h
    exact load64Loop_reads 7 0 0 b h1
  | succ k ih =>
    intro i s s' h
    rw [xorBlock] at h
    simp only [Option.bind_eq_bind] at h
    obtain ⟨b, h1, h2⟩ := Option.bind_eq_some_iff.mp h
    obtain ⟨_, _, h3⟩ := Option.bind_eq_some_iff.mp h2
    obtain ⟨_, _, h4⟩ := Option.bind_eq_some_iff.mp h3
    obtain ⟨y, h5⟩ := ih _ _ _ h4
    obtain ⟨z, h6⟩ := load64Loop_reads 7 0 0 b h1
    refine ⟨z ++ y, ?_⟩
    rw [show 8 * (k + 1 + 1) = 8 + 8 * (k + 1) by omega]
    exact load_join h6 (by rw [add_add]; exact h5)

theorem absorbLoop_reads {m : Mem} {r : Nat} (hr : r % 8 = 0) (hr0 : 0 < r) : ∀ (fuel : Nat) (s : LaneArr) (q : Ptr) (mlen : Nat)
    (a : LaneArr × Ptr × Nat), absorbLoop m r fuel s q mlen = some a →
    ∃ j, a.2.1 = q + j ∧ j + a.2.2 = mlen ∧ (0 < j → ∃ y, load m q j = some y) := by
  intro fuel
  induction fuel with
  | zero => intro s q mlen a h; rw [absorbLoop] at h; cases h
  | succ fuel ih =>
    intro s q mlen a h
    rw [absorbLoop] at h
    by_cases c : r ≤ mlen
    · rw [if_pos c, Option.bind_eq_bind] at h
      obtain ⟨b, h1, h2⟩ := Option.bind_eq_some_iff.mp h
      obtain ⟨_, _, h3⟩ := Option.bind_eq_some_iff.mp h2
      obtain ⟨j, e1, e2, e3⟩ := ih _ _ _ _ h3
      obtain ⟨k, hk⟩ : ∃ k, r / 8 = k + 1 := Nat.exists_eq_succ_of_ne_zero (by omega)
      rw [hk] at h1
      obtain ⟨y, h4⟩ := xorBlock_reads _ _ _ _ h1
      rw [Nat.mul_zero, add_zero', show 8 * (k + 1) = r by omega] at h4
      refine ⟨r + j, by rw [e1, add_add], by omega, fun _ => ?_⟩
      by_cases hj : j = 0
      · subst hj; exact ⟨y, h4⟩
      · obtain ⟨z, h5⟩ := e3 (by omega)
        exact ⟨y ++ z, load_join h4 h5⟩
    · rw [if_neg c] at h
      obtain rfl := Option.some.inj h
      exact ⟨0, rfl, Nat.zero_add _, fun h => absurd h (by omega)⟩

theorem copyLoop_reads {dst src : Ptr} (hb : src.blk ≠ dst.blk) : ∀ (k i : Nat) (m m' : Mem), copyLoop dst src (k + 1) i m = some m' →
    ∃ y, load m (src + i) (k + 1) = some y := by
  intro k
  induction k with
  | zero =>
    intro i m m' h
    rw [copyLoop, Option.bind_eq_bind] at h
    obtain ⟨b, h1, _⟩ := Option.bind_eq_some_iff.mp h
    exact ⟨b, h1⟩
  | succ k ih =>
    intro i m m' h
    rw [copyLoop, Option.bind_eq_bind] at h
    obtain ⟨b, h1, h2⟩ := Option.bind_eq_some_iff.mp h
    obtain ⟨m1, h3, h4⟩ := Option.bind_eq_some_iff.mp h2
    obtain ⟨y, h5⟩ := ih _ _ _ h4
    rw [load_store_disj h3 (Disj.of_blk (by simpa using hb))] at h5
    refine ⟨b ++ y, ?_⟩
    rw [Nat.add_comm (k + 1) 1]
    exact load_join h1 (by rw [add_add]; exact h5)

theorem keccakAbsorb_reads {m : Mem} {s : LaneArr} {r : Nat} (hr : r % 8 = 0) (hr0 : 0 < r) {q : Ptr} {mlen : Nat} {pad : UInt8}
    (hq : q.blk < m.length) (hpos : 0 < mlen) {a : LaneArr × Mem} (h : keccakAbsorb m s r q mlen pad = some a) :
    ∃ y, load m q mlen = some y := by
  rw [keccakAbsorb, alloc_pos (by decide : 0 < 200)] at h
  simp only [Option.bind_eq_bind, Option.bind_some] at h
  obtain ⟨b, h1, h2⟩ := Option.bind_eq_some_iff.mp h
  obtain ⟨m1, h3, h4⟩ := Option.bind_eq_some_iff.mp h2
  obtain ⟨m2, h5, _⟩ := Option.bind_eq_some_iff.mp h4
  obtain ⟨k, rfl⟩ : ∃ k, r = k + 1 := Nat.exists_eq_succ_of_ne_zero (by omega)
  rw [zeroLoop_of] at h3
  obtain ⟨j, e1, e2, e3⟩ := absorbLoop_reads hr hr0 _ _ _ _ _ h1
  have tail : 0 < b.2.2 → ∃ z, load m (q + j) b.2.2 = some z := by
    intro hb
    obtain ⟨l, hl⟩ : ∃ l, b.2.2 = l + 1 := Nat.exists_eq_succ_of_ne_zero (by omega)
    rw [hl] at h5
    obtain ⟨z, h6⟩ := copyLoop_reads (by rw [e1, add_blk]; exact Nat.ne_of_lt hq) _ _ _ _ h5
    rw [add_zero', load_store_disj h3 (Disj.of_blk (by rw [e1, add_blk, add_blk]; exact Nat.ne_of_lt hq)), e1,
      load_left (by rw [add_blk]; exact hq), ← hl] at h6
    exact ⟨z, h6⟩
  by_cases hj : j = 0
  · subst hj
    rw [add_zero', show b.2.2 = mlen by omega] at tail
    exact tail hpos
  · obtain ⟨y, h7⟩ := e3 (by omega)
    rw [load_left hq] at h7
    by_cases hb : b.2.2 = 0
    · rw [show mlen = j by omega]; exact ⟨y, h7⟩
    · obtain ⟨z, h8⟩ := tail (by omega)
      exact ⟨y ++ z, by rw [← e2]; exact load_join h7 h8⟩

theorem shake_reads {r : Nat} (hr : r % 8 = 0) (hr0 : 0 < r) {m m' : Mem} {out inp : Ptr} {outlen inlen : Nat}
    (hi : inp.blk < m.length) (hpos : 0 < inlen) (h : shake r m out outlen inp inlen = some m') : ∃ x, load m inp inlen = some x := by
  rw [shake, alloc_pos hr0] at h
  simp only [Option.bind_eq_bind, Option.bind_some] at h
  obtain ⟨s, _, h2⟩ := Option.bind_eq_some_iff.mp h
  obtain ⟨a, h3, _⟩ := Option.bind_eq_some_iff.mp h2
  obtain ⟨y, h4⟩ := keccakAbsorb_reads hr hr0 (by simp; omega) hpos h3
  rw [load_left hi] at h4
  exact ⟨y, h4⟩

/-- No output: the input is absorbed, nothing is written. -/
theorem shake_zero {r : Nat} (hr : r % 8 = 0) (hr0 : 0 < r) (hr2 : r ≤ 200) {m : Mem} {out inp : Ptr} {inlen : Nat} {x : Bytes}
    (h : load m inp inlen = some x) : shake r m out 0 inp inlen = some m := by
  have hx := load_length h
  subst hx
  have h' : load (m ++ [part r []]) inp x.length = some x := by rw [load_left (load_blk h), h]
  rw [shake, alloc_pos hr0, ← part_nil]
  simp only [Option.bind_eq_bind]
  rw [Option.bind_some]
  dsimp only
  rw [clearLanes_25, Option.bind_some, keccakAbsorb_of hr hr0 hr2 0x1F (by simp) h', Option.bind_some]
  dsimp only
  rw [Nat.zero_div, squeezeBlocks, Option.bind_some, if_neg (by simp), Option.bind_some, release_append rfl]

end Xmss.Low
