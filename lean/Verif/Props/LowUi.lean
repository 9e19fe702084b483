import Verif.Model.LowUi
import Verif.Props.LowFast
import Verif.Props.FastDamagedUb
import Verif.Props.UiFast
/-
C86: the command line tools on explicit memory, in both builds.
-/
namespace Xmss.Low

variable {P : Prims} {f : Family} {oid : Nat} {p : Params} {H : Bytes → Bytes}

/-! ### Reading files into buffers -/

/-- `fread` into the start of an object. -/
theorem fread_of {m : Mem} {b n : Nat} {o : Block} {s : Stream} {x : Bytes} (hb : m[b]? = some o) (hx : (s.data.drop s.pos).take n = x)
    (ho : x.length ≤ o.length) :
    fread m ⟨b, 0⟩ n s = some (m.set b (x.map some ++ o.drop x.length), { s with pos := s.pos + x.length }) := by
  rw [fread]
  simp only [Option.bind_eq_bind, hx]
  rw [store]
  simp only [Option.bind_eq_bind]
  rw [hb, Option.bind_some, Block.write, Nat.zero_add, if_pos ho]
  simp only [Option.bind_some, List.take_zero, List.nil_append]

theorem drop_full {o : Block} {k : Nat} (h : o.length = k) (x : Block) : x ++ o.drop k = x := by
  rw [List.drop_of_length_le (by omega), List.append_nil]

theorem uninit {m : Mem} {q : Ptr} {len : Nat} {o : Block} (h : m[q.blk]? = some o) (ho : o[q.off]? = some none) (hl : 0 < len) :
    load m q len = none := by
  cases e : load m q len with
  | none => rfl
  | some x =>
    exfalso
    have hx := load_length e
    have hh := (Holds.of_load e).2 0
    cases x with
    | nil => simp at hx; omega
    | cons v x =>
      have := hh v rfl
      rw [cell, h, Option.bind_some, Nat.add_zero, ho] at this
      cases this

/-- A byte that a call leaves uninitialised cannot be read afterwards. -/
theorem unreadable {m m' : Mem} {b len : Nat} {rs : List (Ptr × Nat)} (h : OnlyIn m m' rs) (hw : ¬ Within rs b 0)
    (hz : cell m b 0 = some none) (hl : 0 < len) : load m' ⟨b, 0⟩ len = none := by
  cases e : load m' ⟨b, 0⟩ len with
  | none => rfl
  | some x =>
    exfalso
    have hh := (Holds.of_load e).2 0
    have hxl := load_length e
    cases x with
    | nil => simp at hxl; omega
    | cons v x =>
      have h0 := hh v rfl
      dsimp only at h0
      rw [Nat.add_zero, h.2 b 0 hw, hz] at h0
      cases h0

theorem bytesToUllLoop_none {m : Mem} {q : Ptr} {inlen : Nat} : ∀ k i r, (∃ j, i ≤ j ∧ j < i + k ∧ load m (q + j) 1 = none) →
    bytesToUllLoop m q inlen k i r = none
  | 0, i, r, ⟨j, h1, h2, _⟩ => by omega
  | k + 1, i, r, ⟨j, h1, h2, h3⟩ => by
    rw [bytesToUllLoop]
    simp only [Option.bind_eq_bind]
    by_cases e : i = j
    · rw [e, h3, Option.bind_none]
    · cases load m (q + i) 1 with
      | none => rfl
      | some x =>
        rw [Option.bind_some]
        split
        · rfl
        · exact bytesToUllLoop_none k (i + 1) _ ⟨j, by omega, by omega, h3⟩

theorem bytesToUll_short {x : Bytes} (h : x.length < 4) :
    bytesToUllLoop (([List.replicate oidLen none] : Mem).set 0 (x.map some ++ (List.replicate oidLen none).drop x.length)) ⟨0, 0⟩
      oidLen oidLen 0 0 = none := by
  refine bytesToUllLoop_none _ _ _ ⟨3, by omega, by decide, ?_⟩
  refine uninit (o := x.map some ++ (List.replicate oidLen none).drop x.length) rfl ?_ (by omega)
  show (x.map some ++ (List.replicate oidLen none).drop x.length)[3]? = some none
  rw [List.drop_replicate, List.getElem?_append_right (by rw [List.length_map]; omega), List.length_map, List.getElem?_replicate,
    if_pos (by have : oidLen = 4 := rfl
               omega)]

theorem room_fresh' {m : Mem} {b len : Nat} {o : Block} (h : m[b]? = some o) (hl : len ≤ o.length) : Room m ⟨b, 0⟩ len :=
  ⟨o, h, by simp [hl]⟩

/-! ### Sizes -/

theorem sizes_simple (hp : f.parse oid = some p) : 4 + p.sk_bytes < 2 ^ 32 ∧ 4 + p.pk_bytes < 2 ^ 32 ∧ 0 < p.sk_bytes ∧ oid < 2 ^ 32 := by
  obtain ⟨g, hskb, ho, _⟩ := Family.facts (P := Toy.prims) hp
  have := (fits_of_good g).n_lt
  have := g.idx_le
  have := g.n_pos
  have := g.pk_eq
  have : (2 : Nat) ^ 16 * 4 + 8 < 2 ^ 31 := by norm_num
  have : (2 : Nat) ^ 31 < 2 ^ 32 := by norm_num
  have : (2 : Nat) ^ 8 < 2 ^ 32 := by norm_num
  omega

theorem sizes_fast (hp : f.parseFast oid = some p) : 4 + p.sk_bytes < 2 ^ 32 ∧ 4 + p.pk_bytes < 2 ^ 32 ∧ oid < 2 ^ 32 := by
  obtain ⟨g, hskb, ho, _, _, _⟩ := parseFast_good hp
  have h1 := wild_far hp
  have h2 := Nat.mod_lt (wildOffset * p.n) (show 0 < 2 ^ 32 by norm_num)
  have := (fits_of_good g).n_lt
  have := g.pk_eq
  have : (2 : Nat) ^ 16 * 4 + 8 < 2 ^ 31 := by norm_num
  have : (2 : Nat) ^ 31 < 2 ^ 32 := by norm_num
  have : (2 : Nat) ^ 8 < 2 ^ 32 := by norm_num
  omega

/-! ### The sign tool -/

theorem alloc_nil {k : Nat} (h : 0 < k) : alloc [] k = some (⟨0, 0⟩, [List.replicate k none]) := by
  rw [alloc, if_neg (by omega)]; rfl

theorem oid_load {b : Bytes} {m : Mem} (h : m[0]? = some (b.map some)) (hb : b.length = 4) :
    bytesToUll m ⟨0, 0⟩ oidLen = Xmss.bytesToUll b := by
  refine bytesToUll_of (by decide) ?_
  rw [load]
  simp only [Option.bind_eq_bind]
  rw [h, Option.bind_some]
  exact read_full (by rw [hb]; rfl)

/-- The tool after the first OID. -/
theorem uiSignL_first {L : Lib} {oidp : Nat} {pp : Params} (hpp : L.parse oidp = some pp) (h1 : oidp < 2 ^ 32) (l0 : Nat)
    (rest M : Bytes) :
    uiSignL L l0 (some (Rfc.toByte oidp 4 ++ rest)) (some M) =
      (fread [(Rfc.toByte oidp 4).map some] ⟨0, 0⟩ oidLen ⟨Rfc.toByte oidp 4 ++ rest, 4 + pp.pk_bytes⟩).bind fun r =>
        (bytesToUll r.1 ⟨0, 0⟩ oidLen).bind fun o => match L.parse (w32 o) with
          | none => some { exit := -1, keyFile := some (Rfc.toByte oidp 4 ++ rest), stdout := [] }
          | some p => uiSignRest L p l0 r.1 r.2 M := by
  have l4 : ∀ o, (Rfc.toByte o 4).length = 4 := fun o => toByte_length _ _
  have x1 : ((Rfc.toByte oidp 4 ++ rest).drop 0).take oidLen = Rfc.toByte oidp 4 := List.take_left' (l4 _)
  have hb : Xmss.bytesToUll (Rfc.toByte oidp 4) = some oidp := by
    rw [bytesToUll_eq (by rw [toByte_length]; omega), toNat_toByte, Nat.mod_eq_of_lt]
    have : (256 : Nat) ^ 4 = 2 ^ 32 := by norm_num
    omega
  rw [uiSignL]
  simp only [Option.bind_eq_bind]
  rw [alloc_nil (by decide), Option.bind_some]
  dsimp only
  rw [fread_of (s := ⟨_, 0⟩) (b := 0) rfl x1 (by rw [l4]; exact Nat.le_refl _), Option.bind_some]
  dsimp only
  rw [drop_full (by rw [l4]; rfl), oid_load rfl (l4 _), hb, Option.bind_some, w32_lt (by omega), hpp]
  dsimp only
  have hs : fseekCur ⟨Rfc.toByte oidp 4 ++ rest, 0 + (Rfc.toByte oidp 4).length⟩ pp.pk_bytes =
      ⟨Rfc.toByte oidp 4 ++ rest, 4 + pp.pk_bytes⟩ := by
    rw [fseekCur, l4]
    dsimp only
    rw [if_neg (by omega)]
    congr 1
  rw [hs]
  rfl

/-- The tool up to the point where both OIDs have been read and accepted. -/
theorem uiSignL_of {L : Lib} {oidp : Nat} {pp : Params} (hpp : L.parse oidp = some pp) (hp : L.parse oid = some p)
    (h1 : oidp < 2 ^ 8) (h2 : oid < 2 ^ 8) (l0 : Nat) (pkb sk tail M : Bytes) (hpk : pkb.length = pp.pk_bytes)
    (hsk : sk.length = 4 + p.sk_bytes) (hoid : sk.take 4 = Rfc.toByte oid 4) :
    uiSignL L l0 (some (Rfc.toByte oidp 4 ++ pkb ++ sk ++ tail)) (some M) =
      uiSignRest L p l0 [(Rfc.toByte oid 4).map some] ⟨Rfc.toByte oidp 4 ++ pkb ++ sk ++ tail, 4 + pp.pk_bytes + 4⟩ M := by
  have l4 : ∀ o, (Rfc.toByte o 4).length = 4 := fun o => toByte_length _ _
  have h832 : (2 : Nat) ^ 8 < 2 ^ 32 := by norm_num
  have x2 : ((Rfc.toByte oidp 4 ++ pkb ++ sk ++ tail).drop (4 + pp.pk_bytes)).take oidLen = Rfc.toByte oid 4 := by
    rw [List.append_assoc, List.drop_left' (by rw [List.length_append, l4, hpk]), ← hoid,
      List.take_append_of_le_length (by rw [hsk]; exact Nat.le_add_right _ _)]
    rfl
  have hfirst := uiSignL_first (L := L) hpp (by omega) l0 (pkb ++ sk ++ tail) M
  rw [← List.append_assoc, ← List.append_assoc] at hfirst
  rw [hfirst, fread_of (s := ⟨_, _⟩) (b := 0) rfl x2 (by simp [l4]), Option.bind_some]
  dsimp only
  rw [drop_full (by simp [l4])]
  rw [oid_load rfl (l4 _), bytesToUll_oid h2, Option.bind_some, w32_lt (by omega), hp, l4]
  rfl

/-- Memory of the sign tool when it calls `XMSS_SIGN`: the OID buffer, the secret key, the message, the (uninitialised) output. -/
def signMem (b0 : Block) (sk M : Bytes) (n : Nat) : Mem := [b0, sk.map some, M.map some, List.replicate n none]

/-- The tool from there on. -/
theorem uiSignRest_of (L : Lib) (l0 : Nat) (b0 : Block) (A sk tail M : Bytes) (hsk : sk.length = 4 + p.sk_bytes)
    (h32 : 4 + p.sk_bytes < 2 ^ 32) (h64 : p.sig_bytes + M.length < 2 ^ 64) :
    uiSignRest L p l0 [b0] ⟨A ++ sk ++ tail, A.length + 4⟩ M =
      (L.sign (signMem b0 sk M (p.sig_bytes + M.length)) ⟨1, 0⟩ ⟨3, 0⟩ l0 ⟨2, 0⟩ M.length).bind fun r =>
        (load r.2.2 ⟨1, 4⟩ p.sk_bytes).bind fun y => (load r.2.2 ⟨3, 0⟩ r.2.1).bind fun out =>
          some { exit := 0, keyFile := some (A ++ sk.take 4 ++ y ++ tail), stdout := out } := by
  have e1 : w32 (oidLen + p.sk_bytes) = 4 + p.sk_bytes := w32_lt h32
  have e2 : w64 M.length = M.length := w64_lt (by omega)
  have e3 : w64 (p.sig_bytes + M.length) = p.sig_bytes + M.length := w64_lt h64
  rw [uiSignRest]
  simp only [Option.bind_eq_bind, e1, e2, e3]
  rw [alloc_pos (by omega), Option.bind_some]
  have hs : fseekCur ⟨A ++ sk ++ tail, A.length + 4⟩ (-4) = ⟨A ++ sk ++ tail, A.length⟩ := by
    rw [fseekCur]
    dsimp only
    rw [if_neg (by omega)]
    congr 1
    omega
  simp only [malloc, hs, List.cons_append, List.nil_append, List.length_cons, List.length_nil, Nat.zero_add, Nat.reduceAdd]
  have x1 : ((A ++ sk ++ tail).drop A.length).take (4 + p.sk_bytes) = sk := by
    rw [List.append_assoc, List.drop_left' rfl, List.take_left' hsk]
  rw [fread_of (s := ⟨_, _⟩) (b := 1) (o := List.replicate (4 + p.sk_bytes) none) rfl x1 (by simp [hsk]), Option.bind_some]
  dsimp only
  rw [drop_full (by simp [hsk])]
  have x2 : (M.drop 0).take M.length = M := by rw [List.drop_zero, List.take_length]
  rw [fread_of (s := ⟨_, _⟩) (b := 2) (o := List.replicate M.length none) rfl x2 (by simp), Option.bind_some]
  dsimp only
  rw [drop_full (by simp)]
  show (L.sign (signMem b0 sk M (p.sig_bytes + M.length)) ⟨1, 0⟩ ⟨3, 0⟩ l0 ⟨2, 0⟩ M.length).bind _ = _
  congr 1
  funext r
  rw [fwriteFile]
  simp only [Option.bind_eq_bind, mk_add]
  have hs2 : fseekCur ⟨A ++ sk ++ tail, A.length + sk.length⟩ (-(p.sk_bytes : Int)) = ⟨A ++ sk ++ tail, A.length + 4⟩ := by
    rw [fseekCur, hsk]
    dsimp only
    rw [if_neg (by omega)]
    congr 1
    omega
  rw [hs2]
  show ((load r.2.2 ⟨1, 4⟩ p.sk_bytes).bind _).bind _ = _
  cases hy : load r.2.2 ⟨1, 4⟩ p.sk_bytes with
  | none => rfl
  | some y =>
    rw [Option.bind_some, Option.bind_some, Option.bind_some]
    have hfile : (A ++ sk ++ tail).take (A.length + 4) ++ List.replicate (A.length + 4 - (A ++ sk ++ tail).length) 0 ++ y ++
        (A ++ sk ++ tail).drop (A.length + 4 + p.sk_bytes) = A ++ sk.take 4 ++ y ++ tail := by
      have a1 : (A ++ sk ++ tail).take (A.length + 4) = A ++ sk.take 4 := by
        rw [List.append_assoc, List.take_length_add_append, List.take_append_of_le_length (by omega)]
      have a2 : A.length + 4 - (A ++ sk ++ tail).length = 0 := by
        simp only [List.length_append]; omega
      have a3 : (A ++ sk ++ tail).drop (A.length + 4 + p.sk_bytes) = tail :=
        List.drop_left' (by rw [List.length_append, hsk]; omega)
      rw [a1, a2, a3, List.replicate_zero, List.append_nil]
    dsimp only
    rw [hfile]

theorem signMem_holds {b0 : Block} {sk M : Bytes} {n : Nat} :
    Holds (signMem b0 sk M n) ⟨1, 0⟩ sk ∧ Holds (signMem b0 sk M n) ⟨2, 0⟩ M ∧ Room (signMem b0 sk M n) ⟨3, 0⟩ n :=
  ⟨holds_block rfl, holds_block rfl, room_fresh rfl (by simp)⟩

theorem key_load {m : Mem} {key : Bytes} (h : Holds m ⟨1, 0⟩ key) (hl : key.length = 4 + p.sk_bytes) :
    load m ⟨1, 4⟩ p.sk_bytes = some (key.drop 4) := by
  have h' : Holds m ⟨1, 0⟩ (key.take 4 ++ key.drop 4) := by rw [List.take_append_drop]; exact h
  have := h'.right
  rw [List.length_take, Nat.min_eq_left (by omega)] at this
  exact this.load (by rw [List.length_drop]; omega)

/-- **C86 (sign tool, simple build).**  For every key-pair file (a public key with any accepted OID, a secret key with any
accepted OID and any content, then anything) and every message file: if the index in the key is below 2^h, the tool on
memory does exactly what C41, C42, C51 etc. say of the byte-string tool, whatever its uninitialised `smlen` and buffers
contain; if the key is exhausted, it passes uninitialised memory to `fwrite`. -/
theorem C86_sign {oidp : Nat} {pp : Params} (hpp : f.parse oidp = some pp) (hp : f.parse oid = some p)
    (junk : Nat → Bytes) (hj : Fresh junk) (l0 : Nat) (pkb sk tail M : Bytes) (hpk : pkb.length = pp.pk_bytes)
    (hsk : sk.length = 4 + p.sk_bytes) (hoid : sk.take 4 = Rfc.toByte oid 4) (hlen : p.sig_bytes + M.length < 2 ^ 64) :
    (Rfc.toNat ((sk.drop 4).take p.index_bytes) < 2 ^ p.full_height →
      uiSignL (libSimple P f) l0 (some (Rfc.toByte oidp 4 ++ pkb ++ sk ++ tail)) (some M) =
        uiSign P f junk (some (Rfc.toByte oidp 4 ++ pkb ++ sk ++ tail)) (some M)) ∧
    (2 ^ p.full_height ≤ Rfc.toNat ((sk.drop 4).take p.index_bytes) →
      uiSignL (libSimple P f) l0 (some (Rfc.toByte oidp 4 ++ pkb ++ sk ++ tail)) (some M) = none) := by
  obtain ⟨g, hskb, ho, H, hH⟩ := Family.facts (P := P) hp
  obtain ⟨_, _, ho1, _⟩ := Family.facts (P := P) hpp
  obtain ⟨s1, s2, s3, s4⟩ := sizes_simple hp
  have hHl := Family.hash_length hp hH
  have hsp := g.sig_eq'
  have hrun := uiSignL_of (L := libSimple P f) hpp hp ho1 ho l0 pkb sk tail M hpk hsk hoid
  have hA : (Rfc.toByte oidp 4 ++ pkb).length + 4 = 4 + pp.pk_bytes + 4 := by
    rw [List.length_append, toByte_length, hpk]
  rw [← hA, uiSignRest_of (libSimple P f) l0 _ _ sk tail M hsk s1 hlen] at hrun
  obtain ⟨o, c1, c2, c3, c4, c5, c6⟩ := C41_updates_in_place (P := P) hpp hp junk hj pkb sk tail M hpk hsk hoid
  obtain ⟨k, hk, idx, hi, hkey⟩ := Key.sk_surj hskb sk hsk hoid
  have hidx : Rfc.toNat ((sk.drop 4).take p.index_bytes) = idx := by
    rw [hkey, Key.sk, List.append_assoc, List.append_assoc, List.append_assoc,
      List.drop_left' (toByte_length _ _), List.take_left' (toByte_length _ _), toNat_toByte, Nat.mod_eq_of_lt hi]
  have hjl := hj (p.sig_bytes + M.length)
  have hc := sign_call hp hH k hk idx hi (junk (p.sig_bytes + M.length)) 0 M (by rw [hjl])
  rw [← hkey, c1] at hc
  have hc := Option.some.inj hc
  obtain ⟨m1, m2, m3⟩ := signMem_holds (b0 := (Rfc.toByte oid 4).map some) (sk := sk) (M := M) (n := p.sig_bytes + M.length)
  obtain ⟨m', e1, e2, e3, e4, e5, e6⟩ := C83_sign hp hH k hk idx hi
    (signMem ((Rfc.toByte oid 4).map some) sk M (p.sig_bytes + M.length)) ⟨1, 0⟩ ⟨3, 0⟩ ⟨2, 0⟩ l0 M (by rw [← hkey]; exact m1) m3 m2
    (apart_blk (by omega)) (apart_blk (by simp)) hlen
  have hsign : (libSimple P f).sign = apiSign P f.parse := rfl
  rw [hsign, e1, Option.bind_some] at hrun
  dsimp only at hrun
  have hosk : o.sk = (nextKey p idx k).sk p oid (nextIdx p idx) := by rw [hc]
  rw [← hosk] at e2
  rw [key_load e2 (by rw [c3, hsk]), Option.bind_some] at hrun
  rw [hidx, hrun]
  constructor
  · intro hlt
    have hsm : Holds m' ⟨3, 0⟩ o.sm := by
      have hsplit : o.sm = o.sm.take p.sig_bytes ++ M := by
        conv_lhs => rw [← List.take_append_drop p.sig_bytes o.sm, c6]
      have hdl : (junk (p.sig_bytes + M.length)).drop (p.sig_bytes + M.length) = [] := List.drop_of_length_le (by rw [hjl])
      have slen := sign_length g hHl k.skSeed k.skPrf k.root k.pubSeed idx M
      by_cases d : idx < 2 ^ p.full_height - 1
      · have : o.sm = (suiteOf p H).sign k.skSeed k.skPrf k.root k.pubSeed idx M ++ M := by
          rw [hc]; dsimp only; rw [if_pos d, hdl, List.append_nil]
        rw [this]
        exact (e4 d).1.append (by rw [slen]; exact e3)
      · have d' : idx = 2 ^ p.full_height - 1 := by omega
        have : o.sm = List.replicate p.index_bytes 0xFF ++ ((suiteOf p H).sign (List.replicate p.n 0) (List.replicate p.n 0)
            (List.replicate p.n 0) (List.replicate p.n 0) idx M).drop p.index_bytes ++ M := by
          rw [hc]; dsimp only; rw [if_neg d, if_pos d', hdl, List.append_nil]
        rw [this]
        refine (e5 d').1.append ?_
        have h1 : (List.replicate p.index_bytes (0xFF : UInt8) ++ ((suiteOf p H).sign (List.replicate p.n 0) (List.replicate p.n 0)
            (List.replicate p.n 0) (List.replicate p.n 0) idx M).drop p.index_bytes).length = p.sig_bytes := by
          have := g.prefix_fits
          simp only [List.length_append, List.length_replicate, List.length_drop, sign_length g hHl]; omega
        rw [h1]
        exact e3
    rw [hsm.load c5, Option.bind_some, c2, List.append_assoc _ (sk.take 4), ← c4, List.take_append_drop]
  · intro hge
    have hpos : 0 < p.sig_bytes := by have := g.n_pos; omega
    have hz : cell (signMem ((Rfc.toByte oid 4).map some) sk M (p.sig_bytes + M.length)) 3 0 = some none := by
      show (List.replicate (p.sig_bytes + M.length) (none : Cell))[0]? = some none
      rw [List.getElem?_replicate, if_pos (by omega)]
    rw [unreadable (e6 hge) (by
      rw [within_cons, within_one]
      simp only [add_blk, add_off]
      omega) hz (by omega), Option.bind_none]

/-- **C84 (signing into uninitialised memory).**  `C84_sign_refines` for an output buffer that has never been written: when
the first model (run on any contents `sm0` of that buffer) returns 0 the whole signed message has been written, otherwise
nothing has. -/
theorem C84_sign_uninitialised (hp : f.parseFast oid = some p) (m : Mem) (sk sm msg : Ptr) (l0 : Nat)
    (sk0 sm0 M : Bytes) (o : FastOut) (hskl : sk0.length = 4 + p.sk_bytes) (hoid : sk0.take 4 = Rfc.toByte oid 4)
    (hsml : p.sig_bytes + M.length ≤ sm0.length) (hcnt : f = .xmssmt → Counted p (sk0.drop 4))
    (ho : f.signFast P sk0 sm0 l0 M = some o) (hsk : Holds m sk sk0) (hsm : Room m sm (p.sig_bytes + M.length)) (hM : Holds m msg M)
    (d1 : Apart sk sk0.length sm (p.sig_bytes + M.length))
    (d2 : Apart msg M.length sm (p.sig_bytes + M.length)) (d3 : Apart msg M.length sk sk0.length)
    (hlen : p.sig_bytes + M.length < 2 ^ 64) :
    ∃ m', apiSignFastL P f m sk sm l0 msg M.length = some (o.ret, o.smlen, m') ∧
      Holds m' sk o.sk ∧ o.sk.length = sk0.length ∧ o.sk.take 4 = Rfc.toByte oid 4 ∧
      (o.ret = 0 → Holds m' sm (o.sm.take (p.sig_bytes + M.length)) ∧
        o.sm.length = sm0.length ∧
        OnlyIn m m' [(sk + 4, p.sk_bytes), (sm, p.sig_bytes + M.length)]) ∧
      (o.ret ≠ 0 → o.sm = sm0 ∧ OnlyIn m m' [(sk + 4, p.sk_bytes)]) ∧ (f = .xmssmt → Counted p (o.sk.drop 4)) := by
  obtain ⟨g, hskb, ho8, _, _, _⟩ := parseFast_good hp
  obtain ⟨H, hH, hHl⟩ := Family.hashFast (P := P) hp
  have l4 : (Rfc.toByte oid 4).length = 4 := toByte_length _ _
  have hsplit := key_split hoid
  rw [hskl] at d1 d3
  set body := sk0.drop 4 with hbody
  have hbl : body.length = p.sk_bytes := by rw [hbody, List.length_drop]; omega
  rw [hsplit] at hsk
  rw [signFast_core, hsplit] at ho
  obtain ⟨o', ho', rfl⟩ := apiSignFast_inv hp ho8 hH ho
  have hread : oidReadLoop m sk oidLen 0 0 = some oid := oidRead_key hsk (by omega)
  have hskr := hsk.right
  rw [l4] at hskr
  have D1 : Disj sk (4 + p.sk_bytes) sm (p.sig_bytes + M.length) := d1
  have D3 : Disj msg M.length sk (4 + p.sk_bytes) := d3
  obtain ⟨m', e1, e2, e3, e4, e5, e6⟩ := fastSignL_of (P := P) hp hH (sk := sk + 4) (l0 := l0) hbl hsml ho' hcnt hskr hM hsm
    (D1.sub_left 4 _ (Nat.le_refl _)) d2 (D3.sub 4 _ (Nat.le_refl _)) hlen
  have hO : OnlyIn m m' [(sk + 4, p.sk_bytes), (sm, p.sig_bytes + M.length)] := by
    by_cases c : o'.ret = 0
    · exact (e4 c).1
    · exact (e5 c).1.mono fun x i h => by rw [within_cons]; exact Or.inl (within_one.mp h)
  refine ⟨m', ?_, ?_, ?_, List.take_left' l4, ?_, ?_, fun h => by rw [List.drop_left' l4]; exact e6 h⟩
  · rw [apiSignFastL]
    simp only [Option.bind_eq_bind]
    rw [hread, Option.bind_some]
    simp only [hp]
    exact e1
  · refine Holds.append (hsk.left.keep hO ?_) (by rw [l4]; exact e2)
    intro r hr
    simp only [List.mem_cons, List.not_mem_nil, or_false] at hr
    rw [l4]
    rcases hr with rfl | rfl
    · right; left; exact Nat.le_refl _
    · exact Disj.mono D1 (by omega) (Nat.le_refl _)
  · simp only [List.length_append, l4, e3, hskl]
  · intro c
    obtain ⟨h1, x, hx, hX, e⟩ := e4 c
    dsimp only
    rw [e, List.take_left' hx]
    exact ⟨hX, by rw [List.length_append, hx, List.length_drop]; omega, h1⟩
  · intro c
    exact ⟨(e5 c).2, (e5 c).1⟩

/-- **C86 (sign tool, fast build).**  For every key-pair file (a public key with any accepted OID, then a secret key on which
the first model's sign call is defined, then anything) and every message file: if that call returns 0, the tool on memory
does exactly what C43, C51 etc. say of the byte-string tool; if the call refuses, the tool passes uninitialised memory to
`fwrite`, unless the uninitialised variable `smlen` happens to be 0. -/
theorem C86_sign_fast {oidp : Nat} {pp : Params} (hpp : f.parseFast oidp = some pp) (hp : f.parseFast oid = some p)
    (junk : Nat → Bytes) (hj : Fresh junk) (l0 : Nat) (pkb sk tail M : Bytes) (o : FastOut) (hpk : pkb.length = pp.pk_bytes)
    (hsk : sk.length = 4 + p.sk_bytes) (hoid : sk.take 4 = Rfc.toByte oid 4) (hcnt : f = .xmssmt → Counted p (sk.drop 4))
    (ho : f.signFast P sk (junk (p.sig_bytes + M.length)) l0 M = some o) (hlen : p.sig_bytes + M.length < 2 ^ 64) :
    (o.ret = 0 → uiSignL (libFast P f) l0 (some (Rfc.toByte oidp 4 ++ pkb ++ sk ++ tail)) (some M) =
        uiSignFast P f junk l0 (some (Rfc.toByte oidp 4 ++ pkb ++ sk ++ tail)) (some M)) ∧
    (o.ret ≠ 0 → o.smlen ≠ 0 →
      uiSignL (libFast P f) l0 (some (Rfc.toByte oidp 4 ++ pkb ++ sk ++ tail)) (some M) = none) := by
  obtain ⟨g, hskb, ho8, _, _, _⟩ := parseFast_good hp
  obtain ⟨_, _, ho1, _⟩ := parseFast_good hpp
  obtain ⟨s1, s2, s3⟩ := sizes_fast hp
  have hjl := hj (p.sig_bytes + M.length)
  have hrun := uiSignL_of (L := libFast P f) hpp hp ho1 ho8 l0 pkb sk tail M hpk hsk hoid
  have hA : (Rfc.toByte oidp 4 ++ pkb).length + 4 = 4 + pp.pk_bytes + 4 := by
    rw [List.length_append, toByte_length, hpk]
  rw [← hA, uiSignRest_of (libFast P f) l0 _ _ sk tail M hsk s1 hlen] at hrun
  obtain ⟨m1, m2, m3⟩ := signMem_holds (b0 := (Rfc.toByte oid 4).map some) (sk := sk) (M := M) (n := p.sig_bytes + M.length)
  obtain ⟨m', e1, e2, e3, e4, e5, e6, _⟩ := C84_sign_uninitialised (P := P) hp
    (signMem ((Rfc.toByte oid 4).map some) sk M (p.sig_bytes + M.length)) ⟨1, 0⟩ ⟨3, 0⟩ ⟨2, 0⟩ l0 sk _ M o hsk hoid (by rw [hjl]) hcnt ho
    m1 m3 m2 (apart_blk (by omega)) (apart_blk (by omega)) (apart_blk (by omega)) hlen
  have hsign : (libFast P f).sign = apiSignFastL P f := rfl
  rw [hsign, e1, Option.bind_some] at hrun
  dsimp only at hrun
  rw [key_load e2 (by rw [e3, hsk]), Option.bind_some] at hrun
  rw [hrun]
  constructor
  · intro c
    obtain ⟨h1, h2, h3⟩ := e5 c
    have hb : (o.sk.drop 4).length = p.sk_bytes := by rw [List.length_drop, e3, hsk]; omega
    have hx : o.sm.length = p.sig_bytes + M.length := by rw [h2, hjl]
    have hbs : (sk.drop 4).length = p.sk_bytes := by rw [List.length_drop]; omega
    have e : f.signFast P (Rfc.toByte oid 4 ++ sk.drop 4) (junk (p.sig_bytes + M.length)) l0 M =
        some { o with sk := Rfc.toByte oid 4 ++ o.sk.drop 4 } := by
      rw [← key_split hoid, ← key_split e4]; exact ho
    have hfast := uiSignFast_eq (P := P) hpp hp junk l0 pkb (sk.drop 4) tail M hpk hbs hb e
    rw [← key_split hoid, ← key_split e4] at hfast
    rw [hfast]
    rw [List.take_of_length_le (by omega)] at h1
    have hkey : Rfc.toByte oidp 4 ++ pkb ++ sk.take 4 ++ o.sk.drop 4 ++ tail = Rfc.toByte oidp 4 ++ pkb ++ o.sk ++ tail := by
      rw [List.append_assoc _ (sk.take 4), hoid, ← e4, List.take_append_drop]
    rw [hkey]
    split
    · next hle =>
      have hsplit : Holds m' ⟨3, 0⟩ (o.sm.take o.smlen ++ o.sm.drop o.smlen) := by rw [List.take_append_drop]; exact h1
      rw [hsplit.left.load (by rw [List.length_take]; omega), Option.bind_some]
    · next hle =>
      rw [load_none, Option.bind_none]
      rintro ⟨ob, hb1, hb2⟩
      have hlens := congrArg (·[3]?) h3.1
      simp only [List.getElem?_map] at hlens
      dsimp only at hb1 hb2
      rw [hb1] at hlens
      have : (signMem ((Rfc.toByte oid 4).map some) sk M (p.sig_bytes + M.length))[3]? = some (List.replicate (p.sig_bytes + M.length) none) := rfl
      rw [this, Option.map_some, Option.map_some, List.length_replicate] at hlens
      have := Option.some.inj hlens
      omega
  · intro c hl
    obtain ⟨_, h2⟩ := e6 c
    have hz : cell (signMem ((Rfc.toByte oid 4).map some) sk M (p.sig_bytes + M.length)) 3 0 = some none := by
      show (List.replicate (p.sig_bytes + M.length) (none : Cell))[0]? = some none
      have : 0 < p.sig_bytes := by have := g.sig_eq'; have := g.n_pos; omega
      rw [List.getElem?_replicate, if_pos (by omega)]
    rw [unreadable h2 (b := 3) (by
      rw [within_one]; simp only [add_blk]; omega) hz (by omega), Option.bind_none]

/-- **C86 (sign tool, other cases).**  For either build: a file that cannot be opened, or an unknown OID in front of the
public or of the secret key, gives -1 and no change; a key file of fewer than four bytes is undefined
behaviour. -/
theorem C86_sign_other (L : Lib) (l0 : Nat) :
    (∀ msg, uiSignL L l0 none msg = some { exit := -1, keyFile := none, stdout := [] }) ∧
    (∀ key, uiSignL L l0 (some key) none = some { exit := -1, keyFile := some key, stdout := [] }) ∧
    (∀ o rest M, o < 2 ^ 32 → L.parse o = none → uiSignL L l0 (some (Rfc.toByte o 4 ++ rest)) (some M) =
      some { exit := -1, keyFile := some (Rfc.toByte o 4 ++ rest), stdout := [] }) ∧
    (∀ oidp pp pkb o rest M, oidp < 2 ^ 32 → L.parse oidp = some pp → pkb.length = pp.pk_bytes → o < 2 ^ 32 → L.parse o = none →
      uiSignL L l0 (some (Rfc.toByte oidp 4 ++ pkb ++ Rfc.toByte o 4 ++ rest)) (some M) =
        some { exit := -1, keyFile := some (Rfc.toByte oidp 4 ++ pkb ++ Rfc.toByte o 4 ++ rest), stdout := [] }) ∧
    (∀ key M, key.length < 4 → uiSignL L l0 (some key) (some M) = none) := by
  have l4 : ∀ o, (Rfc.toByte o 4).length = 4 := fun o => toByte_length _ _
  refine ⟨fun msg => by cases msg <;> rfl, fun key => rfl, ?_, ?_, ?_⟩
  rotate_left
  · intro oidp pp pkb o rest M h1 hpp hpk ho hp
    have x2 : ((Rfc.toByte oidp 4 ++ pkb ++ Rfc.toByte o 4 ++ rest).drop (4 + pp.pk_bytes)).take oidLen = Rfc.toByte o 4 := by
      rw [List.append_assoc, List.drop_left' (by rw [List.length_append, l4, hpk])]
      exact List.take_left' (l4 _)
    have hb : Xmss.bytesToUll (Rfc.toByte o 4) = some o := by
      rw [bytesToUll_eq (by rw [toByte_length]; omega), toNat_toByte, Nat.mod_eq_of_lt]
      have : (256 : Nat) ^ 4 = 2 ^ 32 := by norm_num
      omega
    have hfirst := uiSignL_first (L := L) hpp h1 l0 (pkb ++ Rfc.toByte o 4 ++ rest) M
    rw [← List.append_assoc, ← List.append_assoc] at hfirst
    rw [hfirst, fread_of (s := ⟨_, _⟩) (b := 0) rfl x2 (by simp [l4]), Option.bind_some]
    dsimp only
    rw [drop_full (by simp [l4]), oid_load rfl (l4 _), hb, Option.bind_some, w32_lt ho, hp]
  rotate_left
  · intro o rest M ho hp
    have x1 : ((Rfc.toByte o 4 ++ rest).drop 0).take oidLen = Rfc.toByte o 4 := List.take_left' (l4 _)
    rw [uiSignL]
    simp only [Option.bind_eq_bind]
    rw [alloc_nil (by decide), Option.bind_some]
    dsimp only
    rw [fread_of (s := ⟨_, 0⟩) (b := 0) rfl x1 (by rw [l4]; exact Nat.le_refl _), Option.bind_some]
    dsimp only
    have hb : Xmss.bytesToUll (Rfc.toByte o 4) = some o := by
      rw [bytesToUll_eq (by rw [toByte_length]; omega), toNat_toByte, Nat.mod_eq_of_lt]
      have : (256 : Nat) ^ 4 = 2 ^ 32 := by norm_num
      omega
    rw [drop_full (by rw [l4]; rfl), oid_load rfl (l4 _), hb, Option.bind_some]
    rw [w32_lt ho, hp]
  · intro key M hk
    have x1 : (key.drop 0).take oidLen = key := by
      rw [List.drop_zero]
      exact List.take_of_length_le (show key.length ≤ 4 by omega)
    rw [uiSignL]
    simp only [Option.bind_eq_bind]
    rw [alloc_nil (by decide), Option.bind_some]
    dsimp only
    rw [fread_of (s := ⟨_, 0⟩) (b := 0) rfl x1 (by rw [List.length_replicate]; exact (show key.length ≤ 4 by omega)), Option.bind_some]
    dsimp only
    rw [bytesToUll, bytesToUll_short, Option.bind_none]
    exact hk

/-! ### The key generation tool -/

theorem two_bufs {a b : Nat} (ha : 0 < a) (hb : 0 < b) (ha' : a < 2 ^ 32) (hb' : b < 2 ^ 32) :
    alloc [] (w32 a) = some (⟨0, 0⟩, [List.replicate a none]) ∧
    alloc [List.replicate a none] (w32 b) = some (⟨1, 0⟩, [List.replicate a none, List.replicate b none]) := by
  rw [w32_lt ha', w32_lt hb', alloc_nil ha, alloc_pos hb]
  exact ⟨rfl, rfl⟩

/-- **C86 (key generation tool, simple build).**  For every list of arguments and all random bytes the tool on memory, whose
two buffers are uninitialised local arrays, does what C45, C51 etc. say of the byte-string tool. -/
theorem C86_keypair (junk seed : Nat → Bytes) (hj : Fresh junk) (hs : ∀ n, (seed n).length = 3 * n) (args : List String) :
    uiKeypairL (libSimple P f) f (fun q => seed q.n) args = uiKeypair P f junk seed args := by
  unfold uiKeypairL uiKeypair
  split
  · next name =>
    dsimp only
    have hparse : (libSimple P f).parse = f.parse := rfl
    rw [hparse]
    generalize (f.strToOid name).getD 0 = oid
    cases hp : f.parse oid with
    | none => rfl
    | some p =>
      obtain ⟨g, hskb, ho, H, hH⟩ := Family.facts (P := P) hp
      obtain ⟨s1, s2, s3, _⟩ := sizes_simple hp
      dsimp only
      simp only [Option.bind_eq_bind]
      obtain ⟨a1, a2⟩ := two_bufs (a := oidLen + p.pk_bytes) (b := oidLen + p.sk_bytes) (Nat.add_pos_left (by decide) _)
        (Nat.add_pos_left (by decide) _) s2 s1
      rw [a1, Option.bind_some]
      dsimp only
      rw [a2, Option.bind_some]
      dsimp only
      have h3 := split3 (seed p.n) p.n p.n
      have hsn := hs p.n
      have l1 : ((seed p.n).take p.n).length = p.n := by simp; omega
      have l2 : (((seed p.n).drop p.n).take p.n).length = p.n := by simp; omega
      have l3 : ((seed p.n).drop (p.n + p.n)).length = p.n := by simp; omega
      obtain ⟨k, m', k1, k2, k3, k4, k5, k6, k7, k8, k9⟩ := C83_keypair (P := P) hp hH
        [List.replicate (oidLen + p.pk_bytes) none, List.replicate (oidLen + p.sk_bytes) none] ⟨0, 0⟩ ⟨1, 0⟩
        (room_fresh rfl (by simp [oidLen])) (room_fresh rfl (by simp [oidLen])) (apart_blk (by omega)) (fun q => seed q.n) _ _ _ h3 l1 l2 l3
      obtain ⟨k', j1, j2, j3, j4, j5, j6, _⟩ := C30_key_layout (P := P) hp hH (junk (4 + p.pk_bytes)) (junk (4 + p.sk_bytes)) (hj _) (hj _)
        seed _ _ _ h3 l1 l2 l3
      have e : k' = k := by
        obtain ⟨a, b, c, d⟩ := k
        obtain ⟨a', b', c', d'⟩ := k'
        unfold Key.Honest at k4 j4
        simp only at *
        subst k1 k2 k3 j1 j2 j3
        rw [k4, j4]
      subst e
      have hcall : (libSimple P f).keypair = apiKeypair P f.parse := rfl
      have e4 : oidLen = 4 := rfl
      rw [hcall, k6, Option.bind_some]
      dsimp only
      have hpkl : (k'.pk oid).length = 4 + p.pk_bytes := by
        simp [Key.pk, toByte_length, k5.root, k5.pubSeed, g.pk_eq]; omega
      rw [k7.load (by rw [hpkl, e4, w32_lt s2]), Option.bind_some, k8.load (by rw [Key.sk_length k5 hskb, e4, w32_lt s1]), Option.bind_some,
        e4, j6, Option.bind_some]
  · next hne =>
    split
    · next name => exact absurd rfl (hne name)
    · rfl

/-- **C86 (key generation tool, fast build).**  For every known name the tool reads its uninitialised secret-key buffer: the run
is undefined behaviour.  For every other list of arguments it returns -1 and writes nothing. -/
theorem C86_keypair_fast (rnd : Params → Bytes) (args : List String) :
    (∀ name, args = [name] → (f.strToOid name).bind f.parseFast ≠ none → uiKeypairL (libFast P f) f rnd args = none) ∧
    ((∀ name, args = [name] → (f.strToOid name).bind f.parseFast = none) →
      uiKeypairL (libFast P f) f rnd args = some { exit := -1, stdout := [] }) := by
  have hparse : (libFast P f).parse = f.parseFast := rfl
  constructor
  · rintro name rfl hne
    cases hn : f.strToOid name with
    | none => rw [hn] at hne; exact absurd rfl hne
    | some oid =>
      rw [hn, Option.bind_some] at hne
      obtain ⟨p, hp⟩ := Option.ne_none_iff_exists'.mp hne
      obtain ⟨g, hskb, ho8, _, _, _⟩ := parseFast_good hp
      obtain ⟨s1, s2, _⟩ := sizes_fast hp
      obtain ⟨a1, a2⟩ := two_bufs (a := oidLen + p.pk_bytes) (b := oidLen + p.sk_bytes) (Nat.add_pos_left (by decide) _)
        (Nat.add_pos_left (by decide) _) s2 s1
      rw [uiKeypairL]
      dsimp only
      rw [hn, Option.getD_some, hparse, hp]
      dsimp only
      simp only [Option.bind_eq_bind]
      rw [a1, Option.bind_some]
      dsimp only
      rw [a2, Option.bind_some]
      dsimp only
      have hcall : (libFast P f).keypair = apiKeypairFastL P f := rfl
      have hu : ∀ k : Nat, load [List.replicate (oidLen + p.pk_bytes) none, List.replicate (oidLen + p.sk_bytes) none] ((⟨1, 0⟩ : Ptr) + k) 1 = none := by
        intro k
        by_contra hc
        obtain ⟨x, hl⟩ := Option.ne_none_iff_exists'.mp hc
        obtain ⟨o, h1, h2⟩ := (Holds.of_load hl).1
        have ho := Option.some.inj h1
        rw [load_length hl, ← ho, List.length_replicate] at h2
        simp only [add_off, Nat.zero_add] at h2
        refine hc (uninit h1 ?_ (by omega))
        rw [← ho]
        simp only [add_off, Nat.zero_add]
        rw [List.getElem?_replicate, if_pos (by omega)]
      rw [hcall, C84_undefined_keypair hp _ _ _ _ (room_fresh' rfl (by simp [oidLen])) (room_fresh' rfl (by simp [oidLen]))
        (apart_blk (by omega)) (apart_blk (by simp)) (hu _), Option.bind_none]
  · intro h
    unfold uiKeypairL
    split
    · next name =>
      dsimp only
      have h0 : f.parseFast 0 = none := by cases f <;> rfl
      have := h name rfl
      cases hn : f.strToOid name with
      | none =>
        rw [Option.getD_none, hparse, h0]
      | some oid =>
        rw [hn, Option.bind_some] at this
        rw [Option.getD_some, hparse, this]
    · rfl

/-! ### The verification tool -/

theorem uiOpenL_of {L : Lib} (hp : L.parse oid = some p) (ho : oid < 2 ^ 8) (h32 : 4 + p.pk_bytes < 2 ^ 32) (l0 : Nat)
    (pk tail S : Bytes) (hpk : pk.length = 4 + p.pk_bytes) (hoid : pk.take 4 = Rfc.toByte oid 4) (h64 : S.length < 2 ^ 64) :
    uiOpenL L l0 (some (pk ++ tail)) (some S) =
      (L.signOpen [(Rfc.toByte oid 4).map some, pk.map some, S.map some, List.replicate S.length none] ⟨3, 0⟩ l0 ⟨2, 0⟩ S.length
        ⟨1, 0⟩).bind fun r => some r.1 := by
  have l4 : ∀ o, (Rfc.toByte o 4).length = 4 := fun o => toByte_length _ _
  have h832 : (2 : Nat) ^ 8 < 2 ^ 32 := by norm_num
  have e4 : oidLen = 4 := rfl
  have x1 : ((pk ++ tail).drop 0).take oidLen = Rfc.toByte oid 4 := by
    rw [List.drop_zero, ← hoid, List.take_append_of_le_length (by rw [hpk]; exact Nat.le_add_right _ _)]
    rfl
  have x2 : ((pk ++ tail).drop 0).take (4 + p.pk_bytes) = pk := List.take_left' hpk
  have x3 : (S.drop 0).take S.length = S := by rw [List.drop_zero, List.take_length]
  rw [uiOpenL]
  simp only [Option.bind_eq_bind]
  rw [alloc_nil (by decide), Option.bind_some]
  dsimp only
  rw [fread_of (s := ⟨_, 0⟩) (b := 0) rfl x1 (by rw [l4]; exact Nat.le_refl _), Option.bind_some]
  dsimp only
  rw [drop_full (by rw [l4]; rfl), oid_load rfl (l4 _), bytesToUll_oid ho, Option.bind_some, w32_lt (by omega), hp]
  dsimp only
  rw [e4, w32_lt h32, w64_lt h64, alloc_pos (by omega), Option.bind_some]
  simp only [malloc, List.cons_append, List.nil_append, List.length_cons, List.length_nil, Nat.zero_add, Nat.reduceAdd, List.set_cons_zero]
  rw [fread_of (s := ⟨_, _⟩) (b := 1) (o := List.replicate (4 + p.pk_bytes) none) rfl x2 (by simp [hpk]), Option.bind_some]
  dsimp only
  rw [drop_full (by simp [hpk]), fread_of (s := ⟨_, _⟩) (b := 2) (o := List.replicate S.length none) rfl x3 (by simp), Option.bind_some]
  dsimp only
  rw [drop_full (by simp)]
  rfl

theorem pk_take (k : Key) (oid : Nat) : (k.pk oid).take 4 = Rfc.toByte oid 4 := by
  rw [Key.pk]
  exact List.take_left' (toByte_length _ _)

/-- **C84 (undefined: short input).**  As `C83_undefined_short_input`, in the fast build. -/
theorem C84_undefined_short_input (hp : f.parseFast oid = some p) (k : Key) (m : Mem) (mbuf sm pk : Ptr) (l0 smlen : Nat)
    (hpk : Holds m pk (k.pk oid)) (hsm : sm.blk < m.length) (h : smlen < p.sig_bytes) (hobj : ∀ o ∈ m, o.length < 2 ^ 64) :
    apiOpen P f.parseFast m mbuf l0 sm smlen pk = none := by
  obtain ⟨g, hskb, ho, _⟩ := parseFast_good hp
  have hsb := g.sig_lt
  have h3264 : (2 : Nat) ^ 32 < 2 ^ 64 := by norm_num
  have hoid : oidReadLoop m pk oidLen 0 0 = some oid := oidRead_key hpk (by omega)
  rw [apiOpen]
  simp only [Option.bind_eq_bind]
  rw [hoid, Option.bind_some]
  simp only [hp]
  rw [coreSignOpen, g.sig_wots]
  simp only [Option.bind_eq_bind]
  rw [alloc_pos (Nat.mul_pos g.len_pos g.n_pos), Option.bind_some]
  dsimp only
  rw [alloc_pos g.n_pos, Option.bind_some]
  dsimp only
  rw [alloc_pos g.n_pos, Option.bind_some]
  dsimp only
  cases bytesToUll _ sm p.index_bytes with
  | none => rfl
  | some idx =>
    rw [Option.bind_some, memcpy_none_of_load, Option.bind_none]
    apply load_none
    rw [List.append_assoc, List.append_assoc]
    refine not_room_left (by exact hsm) ?_
    rintro ⟨o, h1, h2⟩
    have hmem := hobj o (List.mem_of_getElem? h1)
    rw [Nat.mod_eq_of_lt (a := p.sig_bytes) (by omega)] at h2
    simp only [add_off, w64] at h2
    generalize (2 : Nat) ^ 64 = N at *
    rw [Nat.mod_eq_of_lt (by omega)] at h2
    omega

/-- **C86 (verification tool).**  For a key file that starts with a public key (anything may follow) and every signature file of
at least `sig_bytes` bytes, the tool on memory, of either build, has the exit status of the byte-string tool (C44): 0 if
and only if RFC 8391 verification accepts.  A shorter signature file is undefined behaviour. -/
theorem C86_open (hp : f.parse oid = some p) (hH : Xmss.coreHash P p.func p.n = some H) (junk : Nat → Bytes) (hj : Fresh junk)
    (l0 : Nat) (k : Key) (hr : k.root.length = p.n) (hps : k.pubSeed.length = p.n) (tail S : Bytes) (h64 : S.length < 2 ^ 64) :
    (p.sig_bytes ≤ S.length → ∃ status : Int,
      uiOpenL (libSimple P f) l0 (some (k.pk oid ++ tail)) (some S) = some status ∧
      uiOpenL (libFast P f) l0 (some (k.pk oid ++ tail)) (some S) = some status ∧
      uiOpen P f junk (some (k.pk oid ++ tail)) (some S) = some status ∧
      (status = 0 ∨ status = -1) ∧
      (status = 0 ↔ (suiteOf p H).verify k.root k.pubSeed (S.drop p.sig_bytes) (S.take p.sig_bytes))) ∧
    (S.length < p.sig_bytes → uiOpenL (libSimple P f) l0 (some (k.pk oid ++ tail)) (some S) = none ∧
      uiOpenL (libFast P f) l0 (some (k.pk oid ++ tail)) (some S) = none) := by
  obtain ⟨g, hskb, ho, _⟩ := Family.facts (P := P) hp
  obtain ⟨s1, s2, s3, s4⟩ := sizes_simple hp
  obtain ⟨pf, hpf, epf⟩ := parse_both hp
  obtain ⟨_, t2, _⟩ := sizes_fast hpf
  have hpkl : (k.pk oid).length = 4 + p.pk_bytes := by
    simp [Key.pk, toByte_length, hr, hps, g.pk_eq]; omega
  have e1 := uiOpenL_of (L := libSimple P f) hp ho s2 l0 (k.pk oid) tail S hpkl (pk_take k oid) h64
  have hb1 : ∀ S : Bytes, Holds [(Rfc.toByte oid 4).map some, (k.pk oid).map some, S.map some, List.replicate S.length none] ⟨1, 0⟩
    (k.pk oid) := fun _ => holds_block rfl
  constructor
  · intro hle
    obtain ⟨sig, msg, hs, rfl⟩ : ∃ sig msg : Bytes, sig.length = p.sig_bytes ∧ S = sig ++ msg :=
      ⟨S.take p.sig_bytes, S.drop p.sig_bytes, by rw [List.length_take]; omega, (List.take_append_drop _ _).symm⟩
    have hl : (sig ++ msg).length = p.sig_bytes + msg.length := by rw [List.length_append, hs]
    rw [hl] at h64
    have e2 := uiOpenL_of (L := libFast P f) hpf ho t2 l0 (k.pk oid) tail (sig ++ msg) (by rw [hpkl]; subst epf; rfl)
      (pk_take k oid) (by rw [hl]; exact h64)
    have hs2 : Holds [(Rfc.toByte oid 4).map some, (k.pk oid).map some, (sig ++ msg).map some,
      List.replicate (sig ++ msg).length none] ⟨2, 0⟩ (sig ++ msg) := holds_block rfl
    have hr3 : Room [(Rfc.toByte oid 4).map some, (k.pk oid).map some, (sig ++ msg).map some,
      List.replicate (sig ++ msg).length none] ⟨3, 0⟩ (p.sig_bytes + msg.length) := room_fresh rfl (by simp [hs])
    obtain ⟨m1, _, a1, a2⟩ := C83_open (P := P) hp hH k hr hps _ ⟨3, 0⟩ ⟨2, 0⟩ ⟨1, 0⟩ l0 sig msg (hb1 (sig ++ msg)) hs2 hs hr3
      (apart_blk (by omega)) (apart_blk (by omega)) h64
    have epfs : pf.sig_bytes = p.sig_bytes ∧ pf.n = p.n ∧ pf.func = p.func ∧ suiteOf pf H = suiteOf p H := by
      subst epf; exact ⟨rfl, rfl, rfl, rfl⟩
    obtain ⟨m2, _, b1, b2⟩ := C84_open (P := P) hpf (by rw [epfs.2.1, epfs.2.2.1]; exact hH) k (by rw [epfs.2.1]; exact hr)
      (by rw [epfs.2.1]; exact hps) _ ⟨3, 0⟩ ⟨2, 0⟩ ⟨1, 0⟩ l0 sig msg (hb1 (sig ++ msg)) hs2 (by rw [epfs.1]; exact hs)
      (by rw [epfs.1]; exact hr3) (apart_blk (by omega)) (apart_blk (by omega)) (by rw [epfs.1]; exact h64)
    rw [epfs.1, epfs.2.2.2] at b1 b2
    obtain ⟨st, c1, c2, c3⟩ := C44_exit_status (P := P) hp hH junk hj k hr hps tail sig msg hs h64
    have q1 : (libSimple P f).signOpen = apiOpen P f.parse := rfl
    have q2 : (libFast P f).signOpen = apiOpen P f.parseFast := rfl
    rw [e1, e2, q1, q2, hl, List.drop_left' hs, List.take_left' hs]
    rw [hl] at a1 a2 b1 b2
    refine ⟨st, ?_, ?_, c1, c2, c3⟩
    · by_cases hv : (suiteOf p H).verify k.root k.pubSeed msg sig
      · rw [(a1 hv).1, Option.bind_some, c3.mpr hv]
      · rw [(a2 hv).1, Option.bind_some, c2.resolve_left fun h => hv (c3.mp h)]
    · by_cases hv : (suiteOf p H).verify k.root k.pubSeed msg sig
      · rw [(b1 hv).1, Option.bind_some, c3.mpr hv]
      · rw [(b2 hv).1, Option.bind_some, c2.resolve_left fun h => hv (c3.mp h)]
  · intro hlt
    have q1 : (libSimple P f).signOpen = apiOpen P f.parse := rfl
    have q2 : (libFast P f).signOpen = apiOpen P f.parseFast := rfl
    have hobj : ∀ o ∈ [(Rfc.toByte oid 4).map some, (k.pk oid).map some, S.map some, List.replicate S.length none],
        o.length < 2 ^ 64 := by
      have h464 : 2 ^ 32 < 2 ^ 64 := by norm_num
      intro o hmem
      simp only [List.mem_cons, List.not_mem_nil, or_false] at hmem
      rcases hmem with rfl | rfl | rfl | rfl
      · rw [List.length_map, toByte_length]; norm_num
      · rw [List.length_map, hpkl]; omega
      · rw [List.length_map]; exact h64
      · rw [List.length_replicate]; exact h64
    constructor
    · rw [e1, q1, C83_undefined_short_input hp k _ _ _ _ _ _ (hb1 S) (by simp) hlt hobj, Option.bind_none]
    · have e2 := uiOpenL_of (L := libFast P f) hpf ho t2 l0 (k.pk oid) tail S (by rw [hpkl]; subst epf; rfl) (pk_take k oid) h64
      rw [e2, q2, C84_undefined_short_input hpf k _ _ _ _ _ _ (hb1 S) (by simp) (by subst epf; exact hlt) hobj, Option.bind_none]

/-- **C86 (verification tool, other cases).**  For either build: a file that cannot be opened or an unknown OID gives -1; a key
file of fewer than four bytes is undefined behaviour. -/
theorem C86_open_other (L : Lib) (l0 : Nat) :
    (∀ sm, uiOpenL L l0 none sm = some (-1)) ∧ (∀ key, uiOpenL L l0 (some key) none = some (-1)) ∧
    (∀ o rest S, o < 2 ^ 32 → L.parse o = none → uiOpenL L l0 (some (Rfc.toByte o 4 ++ rest)) (some S) = some (-1)) ∧
    (∀ key S, key.length < 4 → uiOpenL L l0 (some key) (some S) = none) := by
  have l4 : ∀ o, (Rfc.toByte o 4).length = 4 := fun o => toByte_length _ _
  refine ⟨fun sm => by cases sm <;> rfl, fun key => rfl, ?_, ?_⟩
  · intro o rest S ho hp
    have x1 : ((Rfc.toByte o 4 ++ rest).drop 0).take oidLen = Rfc.toByte o 4 := List.take_left' (l4 _)
    rw [uiOpenL]
    simp only [Option.bind_eq_bind]
    rw [alloc_nil (by decide), Option.bind_some]
    dsimp only
    rw [fread_of (s := ⟨_, 0⟩) (b := 0) rfl x1 (by rw [l4]; exact Nat.le_refl _), Option.bind_some]
    dsimp only
    have hb : Xmss.bytesToUll (Rfc.toByte o 4) = some o := by
      rw [bytesToUll_eq (by rw [toByte_length]; omega), toNat_toByte, Nat.mod_eq_of_lt]
      have : (256 : Nat) ^ 4 = 2 ^ 32 := by norm_num
      omega
    rw [drop_full (by rw [l4]; rfl), oid_load rfl (l4 _), hb, Option.bind_some]
    rw [w32_lt ho, hp]
  · intro key S hk
    have x1 : (key.drop 0).take oidLen = key := by
      rw [List.drop_zero]
      exact List.take_of_length_le (show key.length ≤ 4 by omega)
    rw [uiOpenL]
    simp only [Option.bind_eq_bind]
    rw [alloc_nil (by decide), Option.bind_some]
    dsimp only
    rw [fread_of (s := ⟨_, 0⟩) (b := 0) rfl x1 (by rw [List.length_replicate]; exact (show key.length ≤ 4 by omega)), Option.bind_some]
    dsimp only
    rw [bytesToUll, bytesToUll_short, Option.bind_none]
    exact hk

/-! ### Whole use -/

/-- Runs of the sign tool on memory, one after the other on the same key file. -/
def toolRunsL (L : Lib) : Option Bytes → List ToolRun → Option (List SignRun)
  | _, [] => some []
  | key, t :: ts => do
    let r ← uiSignL L t.smlen0 key (some t.msg)
    let rs ← toolRunsL L r.keyFile ts
    some (r :: rs)

/-- **C86 (histories).**  Any number of runs on a key file that is not exhausted before the last one. -/
theorem C86_history {oidp : Nat} {pp : Params} (hpp : f.parse oidp = some pp) (hp : f.parse oid = some p) (pkb tail : Bytes)
    (hpk : pkb.length = pp.pk_bytes) : ∀ (ts : List ToolRun) (k : Key) (idx : Nat), k.Valid p → idx + ts.length ≤ 2 ^ p.full_height →
    (∀ t ∈ ts, Fresh t.junk ∧ p.sig_bytes + t.msg.length < 2 ^ 64) →
    toolRunsL (libSimple P f) (some (Rfc.toByte oidp 4 ++ pkb ++ k.sk p oid idx ++ tail)) ts =
      toolRuns P f (some (Rfc.toByte oidp 4 ++ pkb ++ k.sk p oid idx ++ tail)) ts
  | [], _, _, _, _, _ => rfl
  | t :: ts, k, idx, hk, hle, hts => by
    obtain ⟨g, hskb, ho, H, hH⟩ := Family.facts (P := P) hp
    have hHl := Family.hash_length hp hH
    obtain ⟨hj, hlen⟩ := hts t (List.mem_cons_self ..)
    rw [List.length_cons] at hle
    have hf := g.idx_fits
    have hidx : idx < 256 ^ p.index_bytes := by omega
    have hskl := Key.sk_length hk hskb oid idx
    have hjl := hj (p.sig_bytes + t.msg.length)
    have hr : Rfc.toNat (((k.sk p oid idx).drop 4).take p.index_bytes) = idx := by
      rw [Key.sk, List.append_assoc, List.append_assoc, List.append_assoc,
        List.drop_left' (toByte_length _ _), List.take_left' (toByte_length _ _), toNat_toByte, Nat.mod_eq_of_lt hidx]
    have e1 := (C86_sign (P := P) hpp hp t.junk hj t.smlen0 pkb _ tail t.msg hpk hskl (Key.sk_take k p oid idx) hlen).1
      (by rw [hr]; omega)
    obtain ⟨o, c1, c2, _⟩ := C41_updates_in_place (P := P) hpp hp t.junk hj pkb _ tail t.msg hpk hskl (Key.sk_take k p oid idx)
    have hc := sign_call hp hH k hk idx hidx (t.junk (p.sig_bytes + t.msg.length)) 0 t.msg (by rw [hjl])
    rw [c1] at hc
    have hosk : o.sk = (nextKey p idx k).sk p oid (nextIdx p idx) := by rw [Option.some.inj hc]
    rw [toolRunsL, toolRuns, e1, c2, hosk]
    simp only [Option.bind_eq_bind, Option.bind_some]
    cases ts with
    | nil => rfl
    | cons t' ts =>
      rw [List.length_cons] at hle
      have hlt : idx < 2 ^ p.full_height - 1 := by omega
      rw [nextKey, if_pos hlt, nextIdx, if_pos hlt]
      rw [C86_history hpp hp pkb tail hpk (t' :: ts) k (idx + 1) hk (by rw [List.length_cons]; omega)
        fun t ht => hts t (List.mem_cons_of_mem _ ht)]

/-- **C86 (whole use, simple build).**  C51 for the tools on memory: for every known name and all random bytes, the key
generation tool writes a key-pair file, up to 2^h - 1 runs of the sign tool on it all do what they should, and the
verification tools of both builds accept every output with the key file as it then is. -/
theorem C86_use (name : String) (hn : f.strToOid name = some oid) (hp : f.parse oid = some p) (seed : Nat → Bytes)
    (hs : ∀ n, (seed n).length = 3 * n) :
    ∃ file, uiKeypairL (libSimple P f) f (fun q => seed q.n) [name] = some { exit := 0, stdout := file } ∧
      ∀ ts : List ToolRun, (∀ t ∈ ts, Fresh t.junk ∧ p.sig_bytes + t.msg.length < 2 ^ 64) → ts.length ≤ 2 ^ p.full_height - 1 →
        ∃ rs, toolRunsL (libSimple P f) (some file) ts = some rs ∧ rs.length = ts.length ∧
          ∀ j t r, ts[j]? = some t → rs[j]? = some r → GoodRun P f p file j t r ∧
            ∀ key l0, r.keyFile = some key → uiOpenL (libSimple P f) l0 (some key) (some r.stdout) = some 0 ∧
              uiOpenL (libFast P f) l0 (some key) (some r.stdout) = some 0 := by
  obtain ⟨g, hskb, ho, H, hH⟩ := Family.facts (P := P) hp
  let junk : Nat → Bytes := fun n => List.replicate n 0
  have hj : Fresh junk := fun n => List.length_replicate
  obtain ⟨k, hk, hh, _, hkp⟩ := keypair_key (P := P) hp hH (junk (4 + p.pk_bytes)) (junk (4 + p.sk_bytes)) (hj _) (hj _) seed (hs _)
  have hpkl : (k.pk oid).length = 4 + p.pk_bytes := by
    simp [Key.pk, toByte_length, hk.root, hk.pubSeed, g.pk_eq]; omega
  have hkey : uiKeypair P f junk seed [name] = some { exit := 0, stdout := k.pk oid ++ k.sk p oid 0 } := by
    rw [uiKeypair]
    simp only [hn, Option.getD_some, hp, show oidLen = 4 from rfl, hkp, Option.bind_eq_bind, Option.bind_some]
  obtain ⟨file, f1, f2, f3⟩ := C51_simple_tools (P := P) name hn hp junk seed hj (hs _)
  have hfile : file = k.pk oid ++ k.sk p oid 0 := by
    rw [hkey] at f1
    exact (congrArg KeypairRun.stdout (Option.some.inj f1)).symm
  refine ⟨file, by rw [C86_keypair junk seed hj hs, f1], fun ts hts hlen => ?_⟩
  obtain ⟨rs, r1, r2, r3⟩ := f3 ts hts hlen
  have hist := C86_history (P := P) hp hp (k.root ++ k.pubSeed) [] (by rw [List.length_append, hk.root, hk.pubSeed, g.pk_eq]; omega)
    ts k 0 hk (by rw [Nat.zero_add]; exact hlen.trans (Nat.sub_le _ _)) hts
  have hshape : Rfc.toByte oid 4 ++ (k.root ++ k.pubSeed) ++ k.sk p oid 0 ++ [] = file := by
    rw [hfile, List.append_nil, Key.pk]
  rw [hshape, r1] at hist
  refine ⟨rs, hist, r2, fun j t r ht hr => ?_⟩
  have good := r3 j t r ht hr
  refine ⟨good, fun key l0 hkf => ?_⟩
  obtain ⟨key', q1, q2, q3, _, q5⟩ := good.key
  rw [hkf] at q1
  obtain rfl := Option.some.inj q1
  have hsplit : key = k.pk oid ++ key.drop (4 + p.pk_bytes) := by
    conv_lhs => rw [← List.take_append_drop (4 + p.pk_bytes) key, q3, hfile, List.take_left' hpkl]
  have h64 : r.stdout.length < 2 ^ 64 := by
    rw [good.size]; exact (hts t (List.mem_of_getElem? ht)).2
  obtain ⟨st, o1, o2, o3, _⟩ := (C86_open (P := P) hp hH junk hj l0 k hk.root hk.pubSeed (key.drop (4 + p.pk_bytes)) r.stdout h64).1
    (by rw [good.size]; omega)
  rw [← hsplit] at o1 o2 o3
  have := (q5 junk hj).1
  rw [o3] at this
  obtain rfl := Option.some.inj this
  exact ⟨o1, o2⟩

/-- The leaf counters stay in range, so the next run is covered too. -/
theorem signFast_counted (hp : f.parseFast oid = some p) (l0 : Nat) (sk sm0 M : Bytes) (o : FastOut)
    (hsk : sk.length = 4 + p.sk_bytes) (hoid : sk.take 4 = Rfc.toByte oid 4) (hcnt : f = .xmssmt → Counted p (sk.drop 4))
    (hsm : sm0.length = p.sig_bytes + M.length) (ho : f.signFast P sk sm0 l0 M = some o) (hlen : p.sig_bytes + M.length < 2 ^ 64) :
    f = .xmssmt → Counted p (o.sk.drop 4) := by
  obtain ⟨m1, m2, m3⟩ := signMem_holds (b0 := (Rfc.toByte oid 4).map some) (sk := sk) (M := M) (n := p.sig_bytes + M.length)
  obtain ⟨_, _, _, _, _, _, _, h⟩ := C84_sign_uninitialised (P := P) hp
    (signMem ((Rfc.toByte oid 4).map some) sk M (p.sig_bytes + M.length)) ⟨1, 0⟩ ⟨3, 0⟩ ⟨2, 0⟩ l0 sk sm0 M o hsk hoid (by omega) hcnt ho
    m1 m3 m2 (apart_blk (by omega)) (apart_blk (by omega)) (apart_blk (by omega)) hlen
  exact h

/-- **C86 (histories, fast build).**  Any number of runs on a key file on which the sign calls of the first model are defined
and return 0. -/
theorem C86_history_fast {oidp : Nat} {pp : Params} (hpp : f.parseFast oidp = some pp) (hp : f.parseFast oid = some p)
    (pkb tail : Bytes) (hpk : pkb.length = pp.pk_bytes) : ∀ (ts : List ToolRun) (body : Bytes) (os : List FastOut),
    body.length = p.sk_bytes → (f = .xmssmt → Counted p body) →
    (∀ t ∈ ts, Fresh t.junk ∧ p.sig_bytes + t.msg.length < 2 ^ 64) → (∀ o ∈ os, o.sk.length = p.sk_bytes ∧ o.ret = 0) →
    signAllFast P f (Rfc.toByte oid 4 ++ body) (ts.map fun t => ⟨t.junk (p.sig_bytes + t.msg.length), t.smlen0, t.msg⟩) =
      some (os.map fun o => { o with sk := Rfc.toByte oid 4 ++ o.sk }) →
    toolRunsL (libFast P f) (some (Rfc.toByte oidp 4 ++ pkb ++ (Rfc.toByte oid 4 ++ body) ++ tail)) ts =
      toolRunsFast P f (some (Rfc.toByte oidp 4 ++ pkb ++ (Rfc.toByte oid 4 ++ body) ++ tail)) ts := by
  intro ts
  induction ts with
  | nil => intro _ _ _ _ _ _ _; rfl
  | cons t ts ih =>
    intro body os hb hcnt hts hos h
    have l4 : (Rfc.toByte oid 4).length = 4 := toByte_length _ _
    rw [List.map_cons, signAllFast] at h
    obtain ⟨o1, e1, h⟩ := Option.bind_eq_some_iff.mp h
    obtain ⟨o2, e2, h⟩ := Option.bind_eq_some_iff.mp h
    cases os with
    | nil => simp at h
    | cons o os =>
      simp only [List.map_cons, Option.some.injEq, List.cons.injEq] at h
      obtain ⟨h1, h2⟩ := h
      subst h1 h2
      obtain ⟨ho1, ho2⟩ := hos o (by simp)
      obtain ⟨hj, hlen⟩ := hts t (by simp)
      have hskl : (Rfc.toByte oid 4 ++ body).length = 4 + p.sk_bytes := by rw [List.length_append, l4, hb]
      have hoid : (Rfc.toByte oid 4 ++ body).take 4 = Rfc.toByte oid 4 := List.take_left' l4
      have hdrop : ∀ x : Bytes, (Rfc.toByte oid 4 ++ x).drop 4 = x := fun x => List.drop_left' l4
      have hc := signFast_counted (P := P) hp t.smlen0 _ _ t.msg _ hskl hoid (by rw [hdrop]; exact hcnt) (hj _) e1 hlen
      have hsim := (C86_sign_fast (P := P) hpp hp t.junk hj t.smlen0 pkb _ tail t.msg _ hpk hskl hoid (by rw [hdrop]; exact hcnt)
        e1 hlen).1 ho2
      have hrun := uiSignFast_eq (P := P) hpp hp t.junk t.smlen0 pkb body tail t.msg hpk hb (o := o) ho1 e1
      rw [toolRunsL, toolRunsFast, hsim, hrun]
      split
      · simp only [Option.bind_eq_bind, Option.bind_some]
        rw [ih o.sk os ho1 (by simpa only [hdrop] using hc) (fun t ht => hts t (by simp [ht])) (fun o ho => hos o (by simp [ho])) e2]
      · rfl

/-- **C86 (whole use, fast build).**  C51 for the fast tools on memory.  The file is the one the byte-string model of the
key generation tool gives for some contents of its uninitialised secret-key buffer (`C86_keypair_fast`: on real memory
reading them is undefined); from there on everything is defined behaviour: the sign tool does what it should in up to
2^h - 1 runs, and the verification tools of both builds accept every output with the key file as it then is.  (For 40/8 and
60/12: fewer than `2^20` runs.) -/
theorem C86_use_fast (name : String) (hn : f.strToOid name = some oid) (hp : f.parseFast oid = some p)
    (junk seed : Nat → Bytes) (hj : Fresh junk) (hs : (seed p.n).length = 3 * p.n) :
    ∃ file, uiKeypairFast P f junk seed [name] = some { exit := 0, stdout := file } ∧
      ∀ ts : List ToolRun, (∀ t ∈ ts, Fresh t.junk ∧ p.sig_bytes + t.msg.length < 2 ^ 64) →
        ts.length ≤ 2 ^ p.full_height - 1 →
        (p.d ≤ p.tree_height / 2 + 2 ∨ ts.length < 2 ^ (p.tree_height * (p.tree_height / 2 + 2))) →
        ∃ rs, toolRunsL (libFast P f) (some file) ts = some rs ∧ rs.length = ts.length ∧
          ∀ j t r, ts[j]? = some t → rs[j]? = some r → GoodRun P f p file j t r ∧
            ∀ key l0, r.keyFile = some key → uiOpenL (libSimple P f) l0 (some key) (some r.stdout) = some 0 ∧
              uiOpenL (libFast P f) l0 (some key) (some r.stdout) = some 0 := by
  obtain ⟨H, hH, hHl⟩ := Family.hashFast (P := P) hp
  obtain ⟨g, hskb, ho, _⟩ := parseFast_good hp
  obtain ⟨k, hv, hh, _, sk, hskl, ek, hist⟩ := fast_history hp hH (junk (4 + p.pk_bytes)) (junk (4 + p.sk_bytes)) (hj _) (hj _) seed hs
  obtain ⟨file, f1, _, f3⟩ := C51_fast_tools (P := P) name hn hp junk seed hj hs
  have l4 : (Rfc.toByte oid 4).length = 4 := toByte_length _ _
  have hdrop : ∀ x : Bytes, (Rfc.toByte oid 4 ++ x).drop 4 = x := fun x => List.drop_left' l4
  have hkl : (k.root ++ k.pubSeed).length = p.pk_bytes := by simp [hv.root, hv.pubSeed, g.pk_eq]; omega
  have hpkl : (k.pk oid).length = 4 + p.pk_bytes := by rw [Key.pk, List.length_append, l4, hkl]
  have hfile : file = k.pk oid ++ (Rfc.toByte oid 4 ++ sk) := by
    have : uiKeypairFast P f junk seed [name] = some { exit := 0, stdout := k.pk oid ++ (Rfc.toByte oid 4 ++ sk) } := by
      rw [uiKeypairFast]
      simp only [hn, Option.getD_some, uiParseFast_eq, uiKeypairCallFast_eq, hp, show oidLen = 4 from rfl, ek,
        Option.bind_eq_bind, Option.bind_some]
    rw [f1] at this
    exact congrArg KeypairRun.stdout (Option.some.inj this)
  -- the leaf counters in the new key
  have hcnt : f = .xmssmt → Counted p sk := by
    obtain ⟨_, _, _, _, _, h⟩ := C84_keypair (P := P) hp [(junk (4 + p.pk_bytes)).map some, (junk (4 + p.sk_bytes)).map some] ⟨0, 0⟩ ⟨1, 0⟩
      (junk (4 + p.sk_bytes)) (hj _) (room_fresh' (o := (junk (4 + p.pk_bytes)).map some) rfl (by rw [List.length_map, hj]))
      (holds_block rfl) (apart_blk (by omega)) seed hs (junk (4 + p.pk_bytes)) (hj _) _ _ _ ek
    simpa only [hdrop] using h
  obtain ⟨ps, hps⟩ : ∃ ps, f.parse oid = some ps := by
    cases f with
    | xmss =>
      apply Option.isSome_iff_exists.mp
      show (xmssParseOid slowSkBytes oid).isSome
      rw [C02_xmss_oids slowSkBytes oid, ← C02_xmss_oids fastSkBytes oid,
        show xmssParseOid fastSkBytes oid = some p from hp]; rfl
    | xmssmt =>
      apply Option.isSome_iff_exists.mp
      show (xmssmtParseOid slowSkBytes oid).isSome
      rw [C02_xmssmt_oids slowSkBytes oid, ← C02_xmssmt_oids fastSkBytes oid,
        show xmssmtParseOid fastSkBytes oid = some p from hp]; rfl
  obtain ⟨pf', hpf', e⟩ := parse_both hps
  rw [hp] at hpf'
  cases hpf'
  have hHs : Xmss.coreHash P ps.func ps.n = some H := by rw [e] at hH; exact hH
  have esig : p.sig_bytes = ps.sig_bytes := by rw [e]
  have en : p.n = ps.n := by rw [e]
  refine ⟨file, f1, fun ts hts hlen hlim => ?_⟩
  obtain ⟨rs, r1, r2, r3⟩ := f3 ts hts hlen hlim
  have hpos : 0 < 2 ^ p.full_height := Nat.two_pow_pos _
  obtain ⟨os, e1, l1, h1⟩ := hist (ts.map fun t => ⟨t.junk (p.sig_bytes + t.msg.length), t.smlen0, t.msg⟩)
    (by
      intro c hc
      obtain ⟨t, ht, rfl⟩ := List.mem_map.mp hc
      simp only [(hts t ht).1 _, le_refl])
    ⟨fun h => by rw [h] at hlen; simp only [List.length_map]; omega, by rw [List.length_map]; exact hlim⟩
  rw [List.length_map] at l1
  have hrun := C86_history_fast (P := P) hp hp (k.root ++ k.pubSeed) [] hkl ts sk os hskl hcnt hts
    (by
      intro o ho
      obtain ⟨j, hj, rfl⟩ := List.mem_iff_getElem.mp ho
      obtain ⟨o', ho', po⟩ := h1 j _ (by rw [List.getElem?_map, List.getElem?_eq_getElem (show j < ts.length by omega)]; rfl)
      rw [List.getElem?_eq_getElem hj] at ho'
      cases ho'
      exact ⟨po.size, (po.ok (by omega)).1⟩) e1
  have hshape : Rfc.toByte oid 4 ++ (k.root ++ k.pubSeed) ++ (Rfc.toByte oid 4 ++ sk) ++ [] = file := by
    rw [hfile, List.append_nil, Key.pk]
  rw [hshape, r1] at hrun
  refine ⟨rs, hrun, r2, fun j t r ht hr => ?_⟩
  have good := r3 j t r ht hr
  refine ⟨good, fun key l0 hkf => ?_⟩
  obtain ⟨key', q1, q2, q3, _, q5⟩ := good.key
  rw [hkf] at q1
  obtain rfl := Option.some.inj q1
  have hsplit : key = k.pk oid ++ key.drop (4 + p.pk_bytes) := by
    conv_lhs => rw [← List.take_append_drop (4 + p.pk_bytes) key, q3, hfile, List.take_left' hpkl]
  have h64 : r.stdout.length < 2 ^ 64 := by
    rw [good.size]; exact (hts t (List.mem_of_getElem? ht)).2
  obtain ⟨st, o1, o2, o3, _⟩ := (C86_open (P := P) hps hHs junk hj l0 k (by rw [← en]; exact hv.root) (by rw [← en]; exact hv.pubSeed)
    (key.drop (4 + p.pk_bytes)) r.stdout h64).1 (by rw [good.size, ← esig]; omega)
  rw [← hsplit] at o1 o2 o3
  have := (q5 junk hj).1
  rw [o3] at this
  obtain rfl := Option.some.inj this
  exact ⟨o1, o2⟩

/-! ### Concrete cases -/

/-- C86_use is not vacuous: a fresh XMSSMT-SHA2_20/2_256 key file, two messages (one empty), any hash functions. -/
example (P : Prims) : ∃ file r1 r2, uiKeypairL (libSimple P .xmssmt) .xmssmt (fun q => List.replicate (3 * q.n) 1)
      ["XMSSMT-SHA2_20/2_256"] = some { exit := 0, stdout := file } ∧
    toolRunsL (libSimple P .xmssmt) (some file) [⟨fun k => List.replicate k 3, 12345, [1, 2]⟩, ⟨fun k => List.replicate k 9, 0, []⟩] =
      some [r1, r2] ∧ r1.stdout.take 3 = [0, 0, 0] ∧ r2.stdout.take 3 = [0, 0, 1] ∧
    ∃ key1 key2, r1.keyFile = some key1 ∧ r2.keyFile = some key2 ∧ uiOpenL (libFast P .xmssmt) 5 (some key1) (some r1.stdout) = some 0 ∧
      uiOpenL (libSimple P .xmssmt) 7 (some key2) (some r2.stdout) = some 0 := by
  obtain ⟨p, hp, h1, h2, h3⟩ : ∃ p, Family.xmssmt.parse 1 = some p ∧ 2 ≤ 2 ^ p.full_height - 1 ∧ p.index_bytes = 3 ∧
      p.sig_bytes + 2 < 2 ^ 64 := ⟨_, rfl, by decide, by decide, by decide +kernel⟩
  obtain ⟨file, e, h⟩ := C86_use (P := P) (f := .xmssmt) "XMSSMT-SHA2_20/2_256" rfl hp (fun n => List.replicate (3 * n) 1) (by simp)
  obtain ⟨rs, e2, l, g⟩ := h [⟨fun k => List.replicate k 3, 12345, [1, 2]⟩, ⟨fun k => List.replicate k 9, 0, []⟩]
    (by
      intro t ht
      simp only [List.mem_cons, List.not_mem_nil, or_false] at ht
      rcases ht with rfl | rfl
      · exact ⟨fun k => by simp, h3⟩
      · exact ⟨fun k => by simp, by simp only [List.length_nil]; omega⟩) h1
  obtain ⟨r1, r2, rfl⟩ : ∃ r1 r2, rs = [r1, r2] := by
    match rs, l with
    | [a, b], _ => exact ⟨a, b, rfl⟩
  obtain ⟨g1, o1⟩ := g 0 _ r1 rfl rfl
  obtain ⟨g2, o2⟩ := g 1 _ r2 rfl rfl
  have i1 := g1.index
  have i2 := g2.index
  rw [h2] at i1 i2
  obtain ⟨key1, q1, _⟩ := g1.key
  obtain ⟨key2, w1, _⟩ := g2.key
  exact ⟨file, r1, r2, e, e2, i1, i2, key1, key2, q1, w1, (o1 key1 5 q1).2, (o2 key2 7 w1).1⟩

/-- An exhausted XMSS-SHA2_10_256 key file exists for C86_sign, and the tool hands uninitialised memory to `fwrite`. -/
example (P : Prims) (l0 : Nat) (M : Bytes) (hM : M.length < 2 ^ 32) : ∃ key : Bytes, key.length = 4 + 64 + 4 + 132 ∧
    uiSignL (libSimple P .xmss) l0 (some key) (some M) = none := by
  obtain ⟨p, hp, h1, h2, h3, h4, h5⟩ : ∃ p, Family.xmss.parse 1 = some p ∧ p.index_bytes = 4 ∧ p.full_height = 10 ∧ p.sk_bytes = 132 ∧
      p.pk_bytes = 64 ∧ p.sig_bytes = 2500 := ⟨_, rfl, by decide, by decide, by decide +kernel, by decide +kernel, by decide +kernel⟩
  refine ⟨Rfc.toByte 1 4 ++ List.replicate 64 0 ++ (Rfc.toByte 1 4 ++ (Rfc.toByte 1024 4 ++ List.replicate 128 9)) ++ [], ?_,
    (C86_sign (P := P) hp hp (fun k => List.replicate k 0) (fun k => by simp) l0 _ _ [] M (by rw [h4]; simp) (by rw [h3]; rfl)
      (by rfl) (by rw [h5]; omega)).2 ?_⟩
  · rfl
  · rw [h1, h2]
    decide +kernel

/-- C86_keypair_fast, first part: a known name. -/
example (P : Prims) (rnd : Params → Bytes) :
    uiKeypairL (libFast P .xmss) .xmss rnd ["XMSS-SHA2_10_256"] = none :=
  (C86_keypair_fast rnd _).1 _ rfl (by
    have : ((Family.xmss.strToOid "XMSS-SHA2_10_256").bind Family.xmss.parseFast).isSome = true := by decide +kernel
    intro h
    rw [h] at this
    cases this)

end Xmss.Low
