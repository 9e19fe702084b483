import Verif.Proof.LowKeccak
import Verif.Proof.Hash
/-
Model/Low refines the first model: utils.c and hash.c.
-/
namespace Xmss.Low

/-! ### utils.c -/

theorem ullLoop_eq (out : Ptr) : ∀ (k x : Nat) (m : Mem), ullLoop out (k + 1) x m = store m out (Xmss.ullToBytes (k + 1) x) := by
  intro k
  induction k with
  | zero =>
    intro x m
    simp only [ullLoop, Xmss.ullToBytes, add_zero', Option.bind_eq_bind, List.nil_append, Option.bind_fun_some]
  | succ k ih =>
    intro x m
    rw [ullLoop, Xmss.ullToBytes]
    simp only [Option.bind_eq_bind, ih]
    have hl := ullToBytes_length (k + 1) (x >>> 8)
    rw [store_comm (by right; right; simp [hl]), ← store_append, hl]

theorem ullToBytes_of {m : Mem} {out : Ptr} {k x : Nat} (h : 0 < k ∨ store m out [] = some m) (hk : k < 2 ^ 31) (hx : x < 2 ^ 64) :
    ullToBytes m out k x = store m out (Xmss.ullToBytes k x) := by
  unfold ullToBytes
  rw [w64_lt hx]
  cases k with
  | zero =>
    have e : (asInt (usub 0 1) + 1).toNat = 0 := by decide +kernel
    rw [e, ullLoop, Xmss.ullToBytes]
    rcases h with h | h
    · omega
    · exact h.symm
  | succ k =>
    rw [usub_eq (by omega) (by omega), asInt_lt (by omega), show (((k + 1 - 1 : Nat) : Int) + 1).toNat = k + 1 by omega]
    exact ullLoop_eq out k x m

theorem bytesToUllLoop_of {m : Mem} {inp : Ptr} {inlen : Nat} (hi : inlen ≤ 8) : ∀ (bs : Bytes) (i r : Nat),
    i + bs.length = inlen → load m (inp + i) bs.length = some bs →
    bytesToUllLoop m inp inlen bs.length i r = some (Xmss.bytesToUllLoop bs r) := by
  intro bs
  induction bs with
  | nil => intro i r _ _; rfl
  | cons b bs ih =>
    intro i r hl h
    simp only [List.length_cons] at hl h ⊢
    rw [bytesToUllLoop, Xmss.bytesToUllLoop]
    have h1 : load m (inp + i) 1 = some [b] := by
      have := load_sub (A := []) (B := [b]) (C := bs) (by simpa using h)
      simpa using this
    have h2 : load m (inp + (i + 1)) bs.length = some bs := by
      have := load_sub (A := [b]) (B := bs) (C := []) (by simpa using h)
      simpa [add_add] using this
    have e1 : w32 (8 * usub (usub inlen 1) i) = 8 * bs.length := by
      rw [usub_eq (a := inlen) (by omega) (by omega), usub_eq (by omega) (by omega), w32_lt (by omega)]
      congr 1; omega
    simp only [h1, Option.bind_eq_bind, Option.bind_some, e1]
    rw [if_neg (by omega)]
    have hb := b.toNat_lt
    have e2 : w64 (b.toNat <<< (8 * bs.length)) = b.toNat <<< (8 * bs.length) := by
      apply w64_lt
      rw [Nat.shiftLeft_eq]
      calc b.toNat * 2 ^ (8 * bs.length) < 2 ^ 8 * 2 ^ (8 * bs.length) := by
            exact Nat.mul_lt_mul_of_pos_right (by omega) (Nat.two_pow_pos _)
        _ = 2 ^ (8 + 8 * bs.length) := by rw [Nat.pow_add]
        _ ≤ 2 ^ 64 := Nat.pow_le_pow_right (by omega) (by omega)
    rw [show ([b] : Bytes).headD 0 = b from rfl, e2]
    exact ih (i + 1) _ (by omega) h2

theorem bytesToUll_of {m : Mem} {inp : Ptr} {inlen : Nat} {bs : Bytes} (hi : inlen ≤ 8) (h : load m inp inlen = some bs) :
    bytesToUll m inp inlen = Xmss.bytesToUll bs := by
  have hl := load_length h
  unfold bytesToUll Xmss.bytesToUll
  rw [if_neg (by omega)]
  have := bytesToUllLoop_of (m := m) (inp := inp) hi bs 0 0 (by omega) (by simpa [hl] using h)
  rwa [hl] at this

/-! ### hash.c -/

theorem addrToBytesLoop_of (bytes : Ptr) : ∀ (ws : List UInt32) (i : Nat) (m : Mem), ws ≠ [] →
    addrToBytesLoop bytes ws i m = store m (bytes + i * 4) (ws.map (fun w => Xmss.ullToBytes 4 w.toNat)).flatten := by
  intro ws
  induction ws with
  | nil => intro i m h; exact absurd rfl h
  | cons w ws ih =>
    intro i m _
    have hw : w.toNat < 2 ^ 64 := by have := w.toNat_lt; omega
    rw [addrToBytesLoop, ullToBytes_of (by omega) (by omega) hw]
    cases ws with
    | nil => simp [addrToBytesLoop]
    | cons w' ws =>
      have e : ∀ m', addrToBytesLoop bytes (w' :: ws) (i + 1) m' =
          store m' (bytes + i * 4 + (Xmss.ullToBytes 4 w.toNat).length)
            ((w' :: ws).map (fun w => Xmss.ullToBytes 4 w.toNat)).flatten := by
        intro m'
        rw [ih (i + 1) m' (by simp), ullToBytes_length, add_add]
        congr 2; omega
      simp only [e, Option.bind_eq_bind, store_append]
      simp

theorem addrToBytes_of (m : Mem) (bytes : Ptr) (a : Addr) :
    addrToBytes m bytes a = store m bytes (Xmss.addrToBytes a) := by
  unfold addrToBytes Xmss.addrToBytes
  rw [addrToBytesLoop_of _ _ _ _ (by simp [Addr.words])]
  simp

section
variable {P : Prims} {H : Bytes → Bytes} {p : Params}

/-- What the proofs below need to know about the parameters: the sizes fit into the C types. -/
structure Fits (p : Params) : Prop where
  n_pos : 0 < p.n
  n_lt : p.n < 2 ^ 16
  pad_le : p.padding_len ≤ p.n

theorem coreHash_of (hH : Xmss.coreHash P p.func p.n = some H) {m : Mem} {out inp : Ptr} {len : Nat} {x : Bytes}
    (h : load m inp len = some x) (ho : out.blk < m.length) : coreHash P p m out inp len = store m out (H x) := by
  have h' : load (m ++ [part 64 []]) inp len = some x := by rw [load_left (load_blk h), h]
  have ho' : out.blk < (m ++ [part 64 []]).length := by rw [List.length_append]; omega
  have fin : ∀ (b : Block) (y : Bytes), ((store (m ++ [b]) out y).bind fun m1 => some (release m m1)) = store m out y := by
    intro b y
    rw [store_left ho]
    cases hs : store m out y with
    | none => rfl
    | some m' => rw [Option.map_some, Option.bind_some, release_append (store_length hs)]
  have ext : ∀ f : Bytes → Bytes, shaExt f (m ++ [part 64 []]) out inp len = store (m ++ [part 64 []]) out (f x) := by
    intro f
    rw [shaExt, h']
    rfl
  unfold coreHash
  rw [alloc_pos (by omega), ← part_nil]
  simp only [Option.bind_eq_bind]
  rw [Option.bind_some]
  dsimp only
  unfold Xmss.coreHash at hH
  split at hH
  · rename_i c
    obtain rfl := Option.some.inj hH
    have hl : (P.sha256 x).length = 32 := P.sha256_length x
    rw [if_pos c, shaExt, h']
    simp only [Option.bind_eq_bind]
    rw [Option.bind_some, store_right0, store_cons_zero, write_part (x := []) (off := 0) rfl (by rw [hl]; decide), List.nil_append]
    simp only [Option.map_some, Option.bind_some]
    rw [memcpy_eq (x := (P.sha256 x).take 24) (by
      rw [load_right0, load_cons_zero]
      unfold Block.read part
      rw [if_pos (by simp [hl]), List.drop_zero, List.take_append_of_le_length (by simp [hl]), cells_eq_some, List.map_take])
      (Disj.of_blk (by show out.blk ≠ m.length; omega))]
    exact fin _ _
  rename_i c1
  rw [if_neg c1]
  split at hH
  · rename_i c
    obtain rfl := Option.some.inj hH
    rw [if_pos c, shake256_of h' ho' (by decide)]
    exact fin _ _
  rename_i c2
  rw [if_neg c2]
  split at hH
  · rename_i c
    obtain rfl := Option.some.inj hH
    rw [if_pos c, ext]
    exact fin _ _
  rename_i c3
  rw [if_neg c3]
  split at hH
  · rename_i c
    obtain rfl := Option.some.inj hH
    rw [if_pos c, shake128_of h' ho' (by decide)]
    exact fin _ _
  rename_i c4
  rw [if_neg c4]
  split at hH
  · rename_i c
    obtain rfl := Option.some.inj hH
    rw [if_pos c, shake256_of h' ho' (by decide)]
    exact fin _ _
  rename_i c5
  rw [if_neg c5]
  split at hH
  · rename_i c
    obtain rfl := Option.some.inj hH
    rw [if_pos c, ext]
    exact fin _ _
  rename_i c6
  rw [if_neg c6]
  split at hH
  · rename_i c
    obtain rfl := Option.some.inj hH
    rw [if_pos c, shake256_of h' ho' (by decide)]
    exact fin _ _
  · cases hH

theorem finish0 {m : Mem} {L : Mem} {out : Ptr} {y : Bytes} (ho : out.blk < m.length) :
    ((store (m ++ L) out y).bind fun m1 => some (release m m1)) = store m out y := by
  rw [store_left ho]
  cases hs : store m out y with
  | none => rfl
  | some m' => simp [release_append (store_length hs)]

theorem prf_of (hH : Xmss.coreHash P p.func p.n = some H) (f : Fits p) {m : Mem} {out inp key : Ptr} {x k : Bytes}
    (hx : load m inp 32 = some x) (hk : load m key p.n = some k) (ho : out.blk < m.length) :
    prf P p m out inp key = store m out (Xmss.prf H p x k) := by
  have := f.n_pos; have := f.n_lt; have := f.pad_le
  have hxl := load_length hx
  have hkl := load_length hk
  have hL : w32 (p.padding_len + p.n + 32) = p.padding_len + p.n + 32 := w32_lt (by omega)
  have pl := ullToBytes_length p.padding_len padPrf
  unfold prf
  rw [hL, alloc_pos (by omega), ← part_nil]
  simp only [Option.bind_eq_bind]
  rw [Option.bind_some]
  dsimp only
  have s1 : ∀ (a b : Bytes) (o : Nat), o = a.length → a.length + b.length ≤ p.padding_len + p.n + 32 →
      store (m ++ [part (p.padding_len + p.n + 32) a]) ⟨m.length, o⟩ b =
        some (m ++ [part (p.padding_len + p.n + 32) (a ++ b)]) := by
    intro a b o h1 h2
    rw [store_right0, store_cons_zero, write_part h1 h2]
    rfl
  rw [ullToBytes_of (Or.inr (by simpa using s1 [] [] 0 rfl (by simp))) (by omega) (by unfold padPrf; omega),
    s1 [] _ 0 rfl (by simp [pl]; omega), Option.bind_some, List.nil_append]
  rw [memcpy_eq (x := k) (by rw [load_left (load_blk hk), hk]) (Disj.of_blk (by have := load_blk hk; simp; omega)),
    mk_add, s1 _ _ _ (by simp [pl]) (by simp [pl, hkl]), Option.bind_some]
  rw [memcpy_eq (x := x) (by rw [load_left (load_blk hx), hx]) (Disj.of_blk (by have := load_blk hx; simp; omega)),
    mk_add, s1 _ _ _ (by simp [pl, hkl]) (by simp [pl, hkl, hxl]), Option.bind_some]
  rw [part_full (by simp [pl, hkl, hxl]; omega)]
  rw [coreHash_of hH (x := Xmss.ullToBytes p.padding_len padPrf ++ k ++ x), finish0 ho]
  · rfl
  · rw [load_right0, load_cons_zero, read_full (by simp [pl, hkl, hxl]; omega)]
  · rw [List.length_append]; omega

theorem prfKeygen_of (hH : Xmss.coreHash P p.func p.n = some H) (f : Fits p) {m : Mem} {out inp key : Ptr} {x k : Bytes}
    (hx : load m inp (p.n + 32) = some x) (hk : load m key p.n = some k) (ho : out.blk < m.length) :
    prfKeygen P p m out inp key = store m out (Xmss.prfKeygen H p x k) := by
  have := f.n_pos; have := f.n_lt; have := f.pad_le
  have hxl := load_length hx
  have hkl := load_length hk
  have hL : w32 (p.padding_len + w32 (2 * p.n) + 32) = p.padding_len + 2 * p.n + 32 := by
    rw [w32_lt (x := 2 * p.n) (by omega), w32_lt (by omega)]
  have pl := ullToBytes_length p.padding_len padPrfKeygen
  unfold prfKeygen
  rw [hL, alloc_pos (by omega), ← part_nil, w32_lt (x := p.n + 32) (by omega)]
  simp only [Option.bind_eq_bind]
  rw [Option.bind_some]
  dsimp only
  have s1 : ∀ (a b : Bytes) (o : Nat), o = a.length → a.length + b.length ≤ p.padding_len + 2 * p.n + 32 →
      store (m ++ [part (p.padding_len + 2 * p.n + 32) a]) ⟨m.length, o⟩ b =
        some (m ++ [part (p.padding_len + 2 * p.n + 32) (a ++ b)]) := by
    intro a b o h1 h2
    rw [store_right0, store_cons_zero, write_part h1 h2]
    rfl
  rw [ullToBytes_of (Or.inr (by simpa using s1 [] [] 0 rfl (by simp))) (by omega) (by unfold padPrfKeygen; omega),
    s1 [] _ 0 rfl (by simp [pl]; omega), Option.bind_some, List.nil_append]
  rw [memcpy_eq (x := k) (by rw [load_left (load_blk hk), hk]) (Disj.of_blk (by have := load_blk hk; simp; omega)),
    mk_add, s1 _ _ _ (by simp [pl]) (by simp [pl, hkl]; omega), Option.bind_some]
  rw [memcpy_eq (x := x) (by rw [load_left (load_blk hx), hx]) (Disj.of_blk (by have := load_blk hx; simp; omega)),
    mk_add, s1 _ _ _ (by simp [pl, hkl]) (by simp [pl, hkl, hxl]; omega), Option.bind_some]
  rw [part_full (by simp [pl, hkl, hxl]; omega)]
  rw [coreHash_of hH (x := Xmss.ullToBytes p.padding_len padPrfKeygen ++ k ++ x), finish0 ho]
  · rfl
  · rw [load_right0, load_cons_zero, read_full (by simp [pl, hkl, hxl]; omega)]
  · rw [List.length_append]; omega

/-- The masking loop. -/
theorem xorLoop_of {buf inp mask : Ptr} (h1 : buf.blk ≠ inp.blk) (h2 : buf.blk ≠ mask.blk) : ∀ (x y : Bytes) (i : Nat) (m : Mem),
    x ≠ [] → x.length = y.length → p.padding_len + p.n + i + x.length < 2 ^ 32 → load m (inp + i) x.length = some x →
    load m (mask + i) y.length = some y →
    xorLoop p buf inp mask x.length i m = store m (buf + (p.padding_len + p.n + i)) (xorBytes x y) := by
  intro x
  induction x with
  | nil => intro y i m h; exact absurd rfl h
  | cons a x ih =>
    intro y i m _ hl hi hx hy
    cases y with
    | nil => simp at hl
    | cons b y =>
      simp only [List.length_cons] at hl hi hx hy ⊢
      have l1 : load m (inp + i) 1 = some [a] := by
        simpa using load_sub (A := []) (B := [a]) (C := x) (by simpa using hx)
      have l2 : load m (mask + i) 1 = some [b] := by
        simpa using load_sub (A := []) (B := [b]) (C := y) (by simpa using hy)
      have l3 : load m (inp + (i + 1)) x.length = some x := by
        have := load_sub (A := [a]) (B := x) (C := []) (by simpa using hx)
        simpa [add_add] using this
      have l4 : load m (mask + (i + 1)) y.length = some y := by
        have := load_sub (A := [b]) (B := y) (C := []) (by simpa using hy)
        simpa [add_add] using this
      rw [xorLoop]
      simp only [l1, l2, Option.bind_eq_bind, Option.bind_some, w32_lt (show p.padding_len + p.n + i < 2 ^ 32 by omega),
        List.headD_cons]
      cases hs : store m (buf + (p.padding_len + p.n + i)) [a ^^^ b] with
      | none =>
        rw [show xorBytes (a :: x) (b :: y) = [a ^^^ b] ++ xorBytes x y from rfl, ← store_append, hs]; rfl
      | some m' =>
        rw [Option.bind_some]
        by_cases hx0 : x = []
        · subst hx0
          have : y = [] := List.eq_nil_of_length_eq_zero (by simpa using hl.symm)
          subst this
          simp [xorLoop, xorBytes, hs]
        · rw [ih y (i + 1) m' hx0 (by omega) (by omega)
            (by rw [load_store_disj hs (Disj.of_blk (by simpa using Ne.symm h1))]; exact l3)
            (by rw [load_store_disj hs (Disj.of_blk (by simpa using Ne.symm h2))]; exact l4)]
          rw [show xorBytes (a :: x) (b :: y) = [a ^^^ b] ++ xorBytes x y from rfl, ← store_append' hs, add_add]
          congr 2

/-! #### The three local arrays of the tweakable hashes -/

theorem st0 {m : Mem} {b b' c d : Block} {o : Nat} {x : Bytes} (h : b.write o x = some b') :
    store (m ++ [b, c, d]) ⟨m.length, o⟩ x = some (m ++ [b', c, d]) := by
  rw [store_right0, store_cons_zero, h]; rfl

theorem st1 {m : Mem} {b c c' d : Block} {o : Nat} {x : Bytes} (h : c.write o x = some c') :
    store (m ++ [b, c, d]) ⟨m.length + 1, o⟩ x = some (m ++ [b, c', d]) := by
  rw [store_right, store_cons_succ, store_cons_zero, h]; rfl

theorem st2 {m : Mem} {b c d d' : Block} {o : Nat} {x : Bytes} (h : d.write o x = some d') :
    store (m ++ [b, c, d]) ⟨m.length + 2, o⟩ x = some (m ++ [b, c, d']) := by
  rw [store_right, store_cons_succ, store_cons_succ, store_cons_zero, h]; rfl

theorem ld0 {m : Mem} {b c d : Block} {o len : Nat} : load (m ++ [b, c, d]) ⟨m.length, o⟩ len = b.read o len := by
  rw [load_right0, load_cons_zero]

theorem ld1 {m : Mem} {b c d : Block} {o len : Nat} : load (m ++ [b, c, d]) ⟨m.length + 1, o⟩ len = c.read o len := by
  rw [load_right, load_cons_succ, load_cons_zero]

theorem ld2 {m : Mem} {b c d : Block} {o len : Nat} : load (m ++ [b, c, d]) ⟨m.length + 2, o⟩ len = d.read o len := by
  rw [load_right, load_cons_succ, load_cons_succ, load_cons_zero]

theorem finish {m : Mem} {L : Mem} {out : Ptr} {y : Bytes} {a : Addr} (ho : out.blk < m.length) :
    ((store (m ++ L) out y).bind fun m1 => some (release m m1, a)) = (store m out y).map (·, a) := by
  rw [store_left ho]
  cases hs : store m out y with
  | none => rfl
  | some m' => simp [release_append (store_length hs)]

theorem thashF_of (hH : Xmss.coreHash P p.func p.n = some H) (hl : ∀ x, (H x).length = p.n) (f : Fits p) {m : Mem}
    {out inp pubSeed : Ptr} {x s : Bytes} (hx : load m inp p.n = some x) (hs : load m pubSeed p.n = some s)
    (ho : out.blk < m.length) (a : Addr) :
    thashF P p m out inp pubSeed a = (store m out (Xmss.thashF H p x s a).1).map (·, (Xmss.thashF H p x s a).2) := by
  have hn := f.n_pos; have := f.n_lt; have hpad := f.pad_le
  have hxl := load_length hx
  have hsl := load_length hs
  have bx := load_blk hx
  have bs := load_blk hs
  have hL : w32 (p.padding_len + w32 (2 * p.n)) = p.padding_len + 2 * p.n := by
    rw [w32_lt (x := 2 * p.n) (by omega), w32_lt (by omega)]
  have pl := ullToBytes_length p.padding_len padF
  have al := addrToBytes_length
  have prl : ∀ u v, (Xmss.prf H p u v).length = p.n := fun _ _ => hl _
  unfold thashF
  rw [hL, alloc_pos (by omega)]
  simp only [Option.bind_eq_bind]
  rw [Option.bind_some]
  dsimp only
  rw [alloc_pos hn]
  rw [Option.bind_some]
  dsimp only
  rw [alloc_pos (by omega)]
  rw [Option.bind_some]
  dsimp only
  simp only [List.length_append, List.length_cons, List.length_nil, List.append_assoc, List.cons_append, List.nil_append, Nat.zero_add, Nat.reduceAdd]
  simp only [← part_nil, mk_add, Nat.zero_add]
  rw [ullToBytes_of (Or.inr (by rw [st0 (write_part (x := []) (off := 0) rfl (by simp))]; simp)) (by omega) (by unfold padF; omega),
    st0 (write_part (x := []) (off := 0) rfl (by simp [pl]; try omega)), Option.bind_some, List.nil_append]
  -- key
  rw [addrToBytes_of, st2 (write_full (by simp [al, part])), Option.bind_some]
  rw [prf_of hH f (x := Xmss.addrToBytes (setKeyAndMask a 0)) (k := s) (by rw [ld2, read_full (al _)])
    (by rw [load_left bs, hs]) (by simp), st0 (write_part (by simp [pl]) (by simp [pl, prl]; omega)), Option.bind_some]
  -- mask
  rw [addrToBytes_of, st2 (write_full (by simp [al])), Option.bind_some]
  rw [prf_of hH f (x := Xmss.addrToBytes (setKeyAndMask (setKeyAndMask a 0) 1)) (k := s) (by rw [ld2, read_full (al _)])
    (by rw [load_left bs, hs]) (by simp), st1 (write_part (x := []) (off := 0) rfl (by simp [prl])), Option.bind_some, List.nil_append]
  rw [part_full (L := p.n) (prl _ _)]
  -- the masked input
  have hx' := xorLoop_of (p := p) (buf := ⟨m.length, 0⟩) (inp := inp) (mask := ⟨m.length + 1, 0⟩) (by simp; omega) (by simp) x
    (Xmss.prf H p (Xmss.addrToBytes (setKeyAndMask (setKeyAndMask a 0) 1)) s) 0
    (m ++ [part (p.padding_len + 2 * p.n)
        (Xmss.ullToBytes p.padding_len padF ++ Xmss.prf H p (Xmss.addrToBytes (setKeyAndMask a 0)) s),
      List.map some (Xmss.prf H p (Xmss.addrToBytes (setKeyAndMask (setKeyAndMask a 0) 1)) s),
      List.map some (Xmss.addrToBytes (setKeyAndMask (setKeyAndMask a 0) 1))])
    (by intro h; rw [h] at hxl; simp at hxl; omega) (by rw [prl, hxl]) (by omega)
    (by rw [add_zero', load_left bx, hxl, hx]) (by rw [add_zero', ld1, read_full rfl])
  rw [hxl] at hx'
  have xl : (xorBytes x (Xmss.prf H p (Xmss.addrToBytes (setKeyAndMask (setKeyAndMask a 0) 1)) s)).length = p.n := by
    simp [xorBytes, prl, hxl]
  rw [hx', mk_add, st0 (write_part (by simp [pl, prl]) (by simp [pl, prl, xl]; omega)), Option.bind_some,
    part_full (L := p.padding_len + 2 * p.n) (by simp [pl, prl, xl]; omega)]
  rw [coreHash_of hH (x := (Xmss.thashFInput H p x s a).1), finish ho]
  · rfl
  · rw [ld0, read_full (by simp [pl, prl, xl]; omega)]
    rfl
  · rw [List.length_append]; omega

theorem thashH_of (hH : Xmss.coreHash P p.func p.n = some H) (hl : ∀ x, (H x).length = p.n) (f : Fits p) {m : Mem}
    {out inp pubSeed : Ptr} {x s : Bytes} (hx : load m inp (2 * p.n) = some x) (hs : load m pubSeed p.n = some s)
    (ho : out.blk < m.length) (a : Addr) :
    thashH P p m out inp pubSeed a = (store m out (Xmss.thashH H p x s a).1).map (·, (Xmss.thashH H p x s a).2) := by
  have hn := f.n_pos; have := f.n_lt; have hpad := f.pad_le
  have hxl := load_length hx
  have hsl := load_length hs
  have bx := load_blk hx
  have bs := load_blk hs
  have hL : w32 (p.padding_len + w32 (3 * p.n)) = p.padding_len + 3 * p.n := by
    rw [w32_lt (x := 3 * p.n) (by omega), w32_lt (by omega)]
  have hL2 : w32 (2 * p.n) = 2 * p.n := w32_lt (by omega)
  have pl := ullToBytes_length p.padding_len padH
  have al := addrToBytes_length
  have prl : ∀ u v, (Xmss.prf H p u v).length = p.n := fun _ _ => hl _
  unfold thashH
  rw [hL, hL2, alloc_pos (by omega)]
  simp only [Option.bind_eq_bind]
  rw [Option.bind_some]
  dsimp only
  rw [alloc_pos (by omega)]
  rw [Option.bind_some]
  dsimp only
  rw [alloc_pos (by omega)]
  rw [Option.bind_some]
  dsimp only
  simp only [List.length_append, List.length_cons, List.length_nil, List.append_assoc, List.cons_append, List.nil_append, Nat.zero_add, Nat.reduceAdd]
  simp only [← part_nil, mk_add, Nat.zero_add]
  rw [ullToBytes_of (Or.inr (by rw [st0 (write_part (x := []) (off := 0) rfl (by simp))]; simp)) (by omega) (by unfold padH; omega),
    st0 (write_part (x := []) (off := 0) rfl (by simp [pl]; try omega)), Option.bind_some, List.nil_append]
  -- key
  rw [addrToBytes_of, st2 (write_full (by simp [al, part])), Option.bind_some]
  rw [prf_of hH f (x := Xmss.addrToBytes (setKeyAndMask a 0)) (k := s) (by rw [ld2, read_full (al _)])
    (by rw [load_left bs, hs]) (by simp), st0 (write_part (by simp [pl]) (by simp [pl, prl]; omega)), Option.bind_some]
  -- first mask
  rw [addrToBytes_of, st2 (write_full (by simp [al])), Option.bind_some]
  rw [prf_of hH f (x := Xmss.addrToBytes (setKeyAndMask (setKeyAndMask a 0) 1)) (k := s) (by rw [ld2, read_full (al _)])
    (by rw [load_left bs, hs]) (by simp), st1 (write_part (x := []) (off := 0) rfl (by simp [prl]; omega)), Option.bind_some, List.nil_append]
  -- second mask
  rw [addrToBytes_of, st2 (write_full (by simp [al])), Option.bind_some]
  rw [prf_of hH f (x := Xmss.addrToBytes (setKeyAndMask (setKeyAndMask (setKeyAndMask a 0) 1) 2)) (k := s)
    (by rw [ld2, read_full (al _)]) (by rw [load_left bs, hs]) (by simp),
    st1 (write_part (by simp [prl]) (by simp [prl]; omega)), Option.bind_some]
  rw [part_full (L := 2 * p.n) (by simp [prl]; omega)]
  -- the masked input
  have hx' := xorLoop_of (p := p) (buf := ⟨m.length, 0⟩) (inp := inp) (mask := ⟨m.length + 1, 0⟩) (by simp; omega) (by simp) x
    (Xmss.prf H p (Xmss.addrToBytes (setKeyAndMask (setKeyAndMask a 0) 1)) s ++
      Xmss.prf H p (Xmss.addrToBytes (setKeyAndMask (setKeyAndMask (setKeyAndMask a 0) 1) 2)) s) 0
    (m ++ [part (p.padding_len + 3 * p.n)
        (Xmss.ullToBytes p.padding_len padH ++ Xmss.prf H p (Xmss.addrToBytes (setKeyAndMask a 0)) s),
      List.map some (Xmss.prf H p (Xmss.addrToBytes (setKeyAndMask (setKeyAndMask a 0) 1)) s ++
        Xmss.prf H p (Xmss.addrToBytes (setKeyAndMask (setKeyAndMask (setKeyAndMask a 0) 1) 2)) s),
      List.map some (Xmss.addrToBytes (setKeyAndMask (setKeyAndMask (setKeyAndMask a 0) 1) 2))])
    (by intro h; rw [h] at hxl; simp at hxl; omega) (by simp [prl, hxl]; omega) (by omega)
    (by rw [add_zero', load_left bx, hxl, hx]) (by rw [add_zero', ld1, read_full rfl])
  rw [hxl] at hx'
  have xl : (xorBytes x (Xmss.prf H p (Xmss.addrToBytes (setKeyAndMask (setKeyAndMask a 0) 1)) s ++
      Xmss.prf H p (Xmss.addrToBytes (setKeyAndMask (setKeyAndMask (setKeyAndMask a 0) 1) 2)) s)).length = 2 * p.n := by
    simp [xorBytes, prl, hxl]; omega
  rw [hx', mk_add, st0 (write_part (by simp [pl, prl]) (by simp [pl, prl, xl]; omega)), Option.bind_some,
    part_full (L := p.padding_len + 3 * p.n) (by simp [pl, prl, xl]; omega)]
  rw [coreHash_of hH (x := (Xmss.thashHInput H p x s a).1), finish ho]
  · rfl
  · rw [ld0, read_full (by simp [pl, prl, xl]; omega)]
    rfl
  · rw [List.length_append]; omega

/-- `hash_message`: the prefix is written in front of the message, then everything is hashed. -/
theorem hashMessage_of (hH : Xmss.coreHash P p.func p.n = some H) (f : Fits p) {m : Mem} {out R root mp : Ptr} {idx mlen : Nat}
    {r t msg : Bytes} (hv : store m mp [] = some m) (hr : load m R p.n = some r) (ht : load m root p.n = some t)
    (hm : load m (mp + (p.padding_len + 3 * p.n)) mlen = some msg)
    (dr : Disj R p.n mp (p.padding_len + 3 * p.n)) (dt : Disj root p.n mp (p.padding_len + 3 * p.n))
    (hi : idx < 2 ^ 64) (hml : mlen + p.padding_len + 3 * p.n < 2 ^ 64) (ho : out.blk < m.length) :
    hashMessage P p m out R root idx mp mlen =
      (store m mp (Xmss.ullToBytes p.padding_len padHash ++ r ++ t ++ Xmss.ullToBytes p.n idx)).bind fun m1 =>
        store m1 out (H (Xmss.ullToBytes p.padding_len padHash ++ r ++ t ++ Xmss.ullToBytes p.n idx ++ msg)) := by
  have hn := f.n_pos; have := f.n_lt; have hpad := f.pad_le
  have pl := ullToBytes_length p.padding_len padHash
  have il := ullToBytes_length p.n idx
  have hrl := load_length hr
  have htl := load_length ht
  have hmsl := load_length hm
  unfold hashMessage
  rw [w32_lt (x := 2 * p.n) (by omega), w32_lt (x := 3 * p.n) (by omega), w64_lt hml, ullToBytes_of (Or.inr hv) (by omega)
    (by unfold padHash; omega)]
  cases h1 : store m mp (Xmss.ullToBytes p.padding_len padHash) with
  | none =>
    have := store_append_none h1 (r ++ t ++ Xmss.ullToBytes p.n idx)
    simp only [← List.append_assoc] at this
    rw [this]; rfl
  | some m1 =>
    simp only [Option.bind_eq_bind]
    rw [Option.bind_some]
    rw [memcpy_eq (x := r) (by rw [load_store_disj h1 (dr.mono le_rfl (by rw [pl]; omega)), hr])
      (by unfold Disj at dr ⊢; simp only [add_blk, add_off]; omega)]
    rw [show mp + p.padding_len = mp + (Xmss.ullToBytes p.padding_len padHash).length by rw [pl], store_append' h1]
    cases h2 : store m mp (Xmss.ullToBytes p.padding_len padHash ++ r) with
    | none =>
      have := store_append_none h2 (t ++ Xmss.ullToBytes p.n idx)
      simp only [← List.append_assoc] at this
      rw [this]; rfl
    | some m2 =>
      rw [Option.bind_some]
      rw [add_add, show (Xmss.ullToBytes p.padding_len padHash).length + p.n =
        (Xmss.ullToBytes p.padding_len padHash ++ r).length by simp [hrl]]
      rw [memcpy_eq (x := t) (by rw [load_store_disj h2 (dt.mono le_rfl (by simp [pl, hrl]; omega)), ht])
        (by unfold Disj at dt ⊢; simp only [add_blk, add_off, List.length_append, pl, hrl]; omega), store_append' h2]
      cases h3 : store m mp (Xmss.ullToBytes p.padding_len padHash ++ r ++ t) with
      | none =>
        have := store_append_none h3 (Xmss.ullToBytes p.n idx)
        simp only [Option.bind_none, this]
      | some m3 =>
        rw [Option.bind_some]
        rw [add_add, show (Xmss.ullToBytes p.padding_len padHash).length + 2 * p.n =
          (Xmss.ullToBytes p.padding_len padHash ++ r ++ t).length by simp [hrl, htl]; omega]
        rw [ullToBytes_of (Or.inl hn) (by omega) hi, store_append' h3]
        cases h4 : store m mp (Xmss.ullToBytes p.padding_len padHash ++ r ++ t ++ Xmss.ullToBytes p.n idx) with
        | none => rfl
        | some m4 =>
          rw [Option.bind_some]
          have hlen : (Xmss.ullToBytes p.padding_len padHash ++ r ++ t ++ Xmss.ullToBytes p.n idx).length =
              p.padding_len + 3 * p.n := by simp [pl, il, hrl, htl]; omega
          refine coreHash_of hH ?_ (by rw [store_length h4]; exact ho)
          have a1 := load_store_self h4
          rw [hlen] at a1
          have a2 : load m4 (mp + (p.padding_len + 3 * p.n)) mlen = some msg := by
            rw [load_store_disj h4 (by unfold Disj; simp only [add_blk, add_off, hlen]; omega), hm]
          have := load_join a1 a2
          rwa [show p.padding_len + 3 * p.n + mlen = mlen + p.padding_len + 3 * p.n by omega] at this

end

end Xmss.Low
