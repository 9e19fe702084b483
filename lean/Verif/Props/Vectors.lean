import Verif.Model.Vectors
import Verif.Proof.AnyAddr
import Verif.Props.Standard
import Verif.Props.Ui
/-
C68: the test vectors printed by test/vectors are those of the standards.
-/
namespace Xmss

variable {P : Prims} {f : Family}

/-! ### Specification -/

/-- Lower case hexadecimal. -/
def hexText (b : Bytes) : String :=
  String.ofList (b.flatMap fun x => ["0123456789abcdef".toList.getD (x.toNat / 16) ' ', "0123456789abcdef".toList.getD (x.toNat % 16) ' '])

/-- `t` is the fingerprint of `x`: SHAKE128 with 80 bits of output, in hexadecimal. -/
def IsFingerprint (x : Bytes) (t : String) : Prop :=
  ∃ d : Bytes, d.length = 10 ∧ Fips202.bits d = Fips202.SHAKE128 (Fips202.bits x) 80 ∧ t = hexText d

/-- The bytes `a, a+1, ..., a+n-1` times `c` (modulo 256). -/
def counting (c a n : Nat) : Bytes := (List.range n).map fun i => UInt8.ofNat (c * (a + i))

/-- The line that belongs to a parameter set of either family: key pair from the seeds `0, 1, 2, ...`, message `[37]`, signed with the
middle index `2^(h-1)`. -/
def IsXmssLine (P : Prims) (word : String) (e : Registry.Entry) (line : String) : Prop :=
  ∃ H, e.IsHash P.sha256 P.sha512 H ∧
    let S := e.suite H
    let skSeed := counting 1 0 e.n
    let skPrf := counting 1 e.n e.n
    let pubSeed := counting 1 (2 * e.n) e.n
    let root := S.root skSeed pubSeed
    ∃ tp ts, IsFingerprint (root ++ pubSeed) tp ∧ IsFingerprint (S.sign skSeed skPrf root pubSeed (2 ^ (e.h - 1)) [37]) ts ∧
      line = word ++ " " ++ toString e.oid ++ " " ++ tp ++ " " ++ ts ++ "\n"

/-- The line that belongs to the WOTS+ of a parameter set: public key and signature under the address with the words
`0, 5·10^8, 10·10^8, ...`, and the L-tree under this address of the public key under the address `0, 4·10^8, 8·10^8, ...`. -/
def IsWotsLine (P : Prims) (e : Registry.Entry) (line : String) : Prop :=
  ∃ H, e.IsHash P.sha256 P.sha512 H ∧
    let S := e.suite H
    let A : Rfc.AdrsHead := ⟨0, 500000000, 1000000000, 1500000000, 2000000000⟩
    let B : Rfc.AdrsHead := ⟨0, 400000000, 800000000, 1200000000, 1600000000⟩
    let skSeed := counting 1 0 e.n
    let pubSeed := counting 2 0 e.n
    ∃ tp ts tl, IsFingerprint (S.wotsPkAt skSeed pubSeed A).flatten tp ∧
      IsFingerprint (S.wotsSigAt skSeed pubSeed (counting 3 0 e.n) A).flatten ts ∧
      IsFingerprint (S.ltreeAt pubSeed A (S.wotsPkAt skSeed pubSeed B)) tl ∧
      line = "WOTS+ " ++ toString e.oid ++ " " ++ tp ++ " " ++ ts ++ " " ++ tl ++ "\n"

/-! ### Proofs -/

theorem digitChar_hex {v : Nat} (h : v < 16) : Nat.digitChar v = "0123456789abcdef".toList.getD v ' ' := by
  have : ∀ v < 16, Nat.digitChar v = "0123456789abcdef".toList.getD v ' ' := by decide +kernel
  exact this v h

theorem printHex_eq (b : Bytes) : printHex b = hexText b := by
  induction b with
  | nil => rfl
  | cons x xs ih =>
    have h1 : x.toNat / 16 < 16 := by have := x.toNat_lt; omega
    have h2 : x.toNat &&& 15 = x.toNat % 16 := Nat.and_two_pow_sub_one_eq_mod x.toNat 4
    rw [printHex, ih, hexText, hexText, List.flatMap_cons, String.ofList_append, printfX, printfX, h2, digitChar_hex h1,
      digitChar_hex (Nat.mod_lt _ (by norm_num))]
    congr 1
    exact (String.ofList_append (l₁ := [_]) (l₂ := [_])).symm

theorem printHash_fp (x : Bytes) : IsFingerprint x (printHash x) :=
  ⟨shake128 10 x, (C38_shake128 10 x).1, (C38_shake128 10 x).2, printHex_eq _⟩

theorem counting_length (c a n : Nat) : (counting c a n).length = n := by simp [counting]

theorem counting_split (n : Nat) : (List.range (3 * n)).map UInt8.ofNat = counting 1 0 n ++ counting 1 n n ++ counting 1 (2 * n) n := by
  simp only [counting, one_mul, zero_add]
  rw [show 3 * n = n + n + n by ring, List.range_add, List.range_add]
  simp [Function.comp_def, two_mul]

/-- The printed line in closed form. -/
def xmssLine (f : Family) (p : Params) (H : Bytes → Bytes) (oid : Nat) : String :=
  let A := counting 1 0 p.n
  let B := counting 1 p.n p.n
  let C := counting 1 (2 * p.n) p.n
  let R := (suiteOf p H).root A C
  (match f with | .xmss => "XMSS " | .xmssmt => "XMSSMT ") ++ toString oid ++ " " ++ printHash (R ++ C) ++ " " ++
    printHash ((suiteOf p H).sign A B R C (2 ^ (p.full_height - 1)) [37]) ++ "\n"

theorem middle_lt (e : Registry.Entry) (he : e ∈ f.registry) : 2 ^ (e.h - 1) < 2 ^ e.h - 1 := by
  obtain ⟨k, hk⟩ : ∃ k, e.h = k + 2 := by
    have : ∀ e ∈ Registry.xmss ++ Registry.xmssmt, 2 ≤ e.h := by decide +kernel
    have := this e (by cases f with
      | xmss => exact List.mem_append_left _ he
      | xmssmt => exact List.mem_append_right _ he)
    exact ⟨e.h - 2, by omega⟩
  rw [hk, show k + 2 - 1 = k + 1 by omega, pow_succ 2 (k + 1), pow_succ]
  have := Nat.two_pow_pos k
  omega

theorem vectorsXmss_closed (e : Registry.Entry) (he : e ∈ f.registry) (h31 : e.h ≤ 31) (g : Garbage) (hg : ∀ k, Fresh (g k)) {p : Params}
    (hpe : p = params16 slowSkBytes (funcOf e.family) e.n e.pad e.h e.d 0) {H : Bytes → Bytes} (hcore : coreHash P p.func p.n = some H) :
    vectorsXmss P g e.oid (f = .xmssmt) = some (xmssLine f p H e.oid) := by
  obtain ⟨hp, _⟩ := registry_parse he
  rw [← hpe] at hp
  obtain ⟨gd, hskb, _, _⟩ := Family.facts (P := P) hp
  have hHl := Family.hash_length hp hcore
  have hpk := gd.pk_eq
  have hfits := gd.idx_fits
  have hh : p.full_height = e.h := by rw [hpe]; rfl
  have hparse : (if decide (f = .xmssmt) = true then xmssmtParseOid slowSkBytes e.oid else xmssParseOid slowSkBytes e.oid) = some p := by
    cases f with
    | xmss => rw [if_neg (by simp)]; exact hp
    | xmssmt => rw [if_pos (by simp)]; exact hp
  set A := counting 1 0 p.n
  set B := counting 1 p.n p.n
  set C := counting 1 (2 * p.n) p.n
  have lA : A.length = p.n := counting_length _ _ _
  have lB : B.length = p.n := counting_length _ _ _
  have lC : C.length = p.n := counting_length _ _ _
  set R := (suiteOf p H).root A C with hR
  have lR : R.length = p.n := node_length gd hHl _ _ _ _ _ _
  have e1 := coreSeedKeypair_eq gd hHl (g 0 p.pk_bytes) (g 1 p.sk_bytes) A B C [] [] [] (by rw [hg, hpk]) (by rw [hg, hskb]) lA lB lC
  simp only [List.append_nil] at e1
  have e2 : shiftInt (p.full_height - 1) = some (2 ^ (p.full_height - 1)) := by
    rw [shiftInt, if_pos (by omega), Nat.shiftLeft_eq, one_mul]
  have hlt : 2 ^ (p.full_height - 1) < 2 ^ p.full_height - 1 := by rw [hh]; exact middle_lt e he
  have e3 : wr (List.replicate p.index_bytes 0 ++ A ++ B ++ R ++ C) 0 (ullToBytes p.index_bytes (2 ^ (p.full_height - 1))) =
      some (Rfc.toByte (2 ^ (p.full_height - 1)) p.index_bytes ++ A ++ B ++ R ++ C) := by
    have := wr_append [] (List.replicate p.index_bytes 0) (A ++ B ++ R ++ C) (Rfc.toByte (2 ^ (p.full_height - 1)) p.index_bytes) rfl
      (by simp [toByte_length])
    simp only [List.nil_append, List.length_nil] at this
    rw [ullToBytes_eq]
    simpa only [List.append_assoc] using this
  have e4 := coreSign_eq gd hskb hHl (Rfc.toByte (2 ^ (p.full_height - 1)) p.index_bytes) A B R C
    ((g 2 (p.sig_bytes + 1)).take p.sig_bytes) [37] ((g 2 (p.sig_bytes + 1)).drop p.sig_bytes) [] (toByte_length _ _) lA lB lR lC
    (by simp [hg 2 _]) (by simp [hg 2 _])
  rw [List.append_nil, List.take_append_drop, toNat_toByte, Nat.mod_eq_of_lt (lt_of_lt_of_le (lt_of_lt_of_le hlt (Nat.sub_le _ _)) hfits), if_pos hlt] at e4
  have lS := sign_length gd hHl A B R C (2 ^ (p.full_height - 1)) [37]
  have e5 : rd (R ++ C) 0 p.pk_bytes = some (R ++ C) := by
    have := rd_append [] (R ++ C) [] (off := 0) (len := p.pk_bytes) rfl (by rw [List.length_append, lR, lC, hpk]; omega)
    simpa using this
  have e6 : rd ((suiteOf p H).sign A B R C (2 ^ (p.full_height - 1)) [37] ++ [37] ++ []) 0 p.sig_bytes =
      some ((suiteOf p H).sign A B R C (2 ^ (p.full_height - 1)) [37]) := by
    have := rd_append [] ((suiteOf p H).sign A B R C (2 ^ (p.full_height - 1)) [37]) ([37] ++ []) (off := 0) (len := p.sig_bytes) rfl lS.symm
    simpa using this
  rw [vectorsXmss, hparse]
  simp only [Option.bind_eq_bind, Option.bind_some, hcore, counting_split]
  rw [e1, ← hR]
  simp only [Option.bind_some, e2, e3, e4, e5, e6]
  cases f <;> simp [xmssLine, hR, A, B, C]

/-- **C68 (XMSS, XMSS^MT).**  Every parameter set of height at most 31. -/
theorem C68_xmss_line (e : Registry.Entry) (he : e ∈ f.registry) (h31 : e.h ≤ 31) (g : Garbage) (hg : ∀ k, Fresh (g k)) :
    ∃ line, vectorsXmss P g e.oid (f = .xmssmt) = some line ∧
      IsXmssLine P (match f with | .xmss => "XMSS" | .xmssmt => "XMSSMT") e line := by
  obtain ⟨H, hc, hH, _⟩ := C53_hash_function (P := P) he
  refine ⟨_, vectorsXmss_closed (P := P) e he h31 g hg rfl hc, H, hH, _, _, printHash_fp _, printHash_fp _, ?_⟩
  cases f <;> simp only [xmssLine, ← String.append_assoc] <;> rfl

/-- **C68 (WOTS+).**  Every XMSS parameter set. -/
theorem C68_wots_line (e : Registry.Entry) (he : e ∈ Family.xmss.registry) :
    ∃ line, vectorsWots P e.oid = some line ∧ IsWotsLine P e line := by
  obtain ⟨hp, _⟩ := registry_parse he
  obtain ⟨H, hc, hH, _⟩ := C53_hash_function (P := P) he
  obtain ⟨gd, hskb, _, _⟩ := Family.facts (P := P) hp
  set p := params16 slowSkBytes (funcOf e.family) e.n e.pad e.h e.d 0 with hpdef
  have hcore : coreHash P p.func p.n = some H := hc
  have hHl := Family.hash_length hp hcore
  have hparse : xmssParseOid slowSkBytes e.oid = some p := hp
  let A : Rfc.AdrsHead := ⟨0, 500000000, 1000000000, 1500000000, 2000000000⟩
  let B : Rfc.AdrsHead := ⟨0, 400000000, 800000000, 1200000000, 1600000000⟩
  have hA : AnyAddr.IsAt (vectorAddr 500000000) A := ⟨by decide, by decide, by decide, by decide, by decide⟩
  have hB : AnyAddr.IsAt (vectorAddr 400000000) B := ⟨by decide, by decide, by decide, by decide, by decide⟩
  have c1 : (List.range p.n).map (fun i => UInt8.ofNat i) = counting 1 0 p.n := by simp [counting]
  have c2 : (List.range p.n).map (fun i => UInt8.ofNat (2 * i)) = counting 2 0 p.n := by simp [counting]
  have c3 : (List.range p.n).map (fun i => UInt8.ofNat (3 * i)) = counting 3 0 p.n := by simp [counting]
  have r1 := AnyAddr.wotsPkgen_eq (H := H) gd (counting 1 0 p.n) (counting 2 0 p.n) _ hA
  have r2 := AnyAddr.wotsSign_eq (H := H) gd (counting 1 0 p.n) (counting 2 0 p.n) (msg := counting 3 0 p.n) (counting_length _ _ _) _ r1.2
  have r3 := AnyAddr.wotsPkgen_eq (H := H) gd (counting 1 0 p.n) (counting 2 0 p.n) _ hB
  have r4 := AnyAddr.lTree_eq gd hHl (counting 2 0 p.n)
    (nodes := (wotsPkgen H p (counting 1 0 p.n) (counting 2 0 p.n) (vectorAddr 400000000)).1) _ r2.2
    (by rw [r3.1, Rfc.Suite.wotsPkAt, List.length_map, List.length_range, gd.len_eq'])
    (by
      rw [r3.1]
      intro x hx
      obtain ⟨j, _, rfl⟩ := List.mem_map.mp hx
      exact chain_length (suiteOf p H) hHl _ _ (hHl _) _ _)
  refine ⟨_, ?_, H, hH, _, _, _, printHash_fp _, printHash_fp _, printHash_fp _, rfl⟩
  rw [vectorsWots, hparse]
  simp only [Option.bind_eq_bind, Option.bind_some, hcore, c1, c2, c3, genLeafWots, r1.1, r2.1, r4.1]
  rw [r3.1]
  rfl

theorem forOids_eq (body : Nat → Option String) (last step : Nat) (L : Nat → String) : ∀ (k fuel j oid : Nat),
    k < fuel → last < oid + k * step → (∀ i < k, oid + i * step ≤ last ∧ body (oid + i * step) = some (L (j + i))) →
    forOids body last step fuel oid = some (String.join ((List.range' j k).map L)) := by
  intro k
  induction k with
  | zero =>
    intro fuel j oid hf hl _
    obtain ⟨fuel, rfl⟩ : ∃ m, fuel = m + 1 := ⟨fuel - 1, by omega⟩
    rw [forOids, if_neg (by omega)]
    rfl
  | succ k ih =>
    intro fuel j oid hf hl h
    obtain ⟨fuel, rfl⟩ : ∃ m, fuel = m + 1 := ⟨fuel - 1, by omega⟩
    obtain ⟨h1, h2⟩ := h 0 (by omega)
    rw [zero_mul, add_zero] at h1 h2
    rw [forOids, if_pos h1, h2, ih fuel (j + 1) (oid + step) (by omega) (by rw [Nat.succ_mul] at hl; omega)]
    · simp [List.range'_succ]
    · intro i hi
      have := h (i + 1) (by omega)
      rw [Nat.succ_mul] at this
      rw [show oid + step + i * step = oid + (i * step + step) by omega, show j + 1 + i = j + (i + 1) by omega]
      exact this

/-- **C68.**  The program prints 21 lines: for each of the seven hash functions of the standards first the WOTS+ vectors, then the
XMSS^MT vectors of height 20 with 4 layers, then the XMSS vectors of height 10. -/
theorem C68_vectors (g : Bool → Nat → Garbage) (hg : ∀ mt oid k, Fresh (g mt oid k)) :
    ∃ lines : List String, vectorsMain P g = some (String.join lines) ∧ lines.length = 21 ∧
      ∀ i < 7, (∀ e ∈ Registry.xmss, e.oid = 3 * i + 1 → ∀ line, lines[i]? = some line → IsWotsLine P e line) ∧
        (∀ e ∈ Registry.xmssmt, e.oid = 8 * i + 2 → ∀ line, lines[7 + i]? = some line → IsXmssLine P "XMSSMT" e line) ∧
        (∀ e ∈ Registry.xmss, e.oid = 3 * i + 1 → ∀ line, lines[14 + i]? = some line → IsXmssLine P "XMSS" e line) := by
  have hx : ∀ i < 7, ∃ e ∈ Registry.xmss, e.oid = 3 * i + 1 ∧ e.h ≤ 31 := by decide +kernel
  have hm : ∀ i < 7, ∃ e ∈ Registry.xmssmt, e.oid = 8 * i + 2 ∧ e.h ≤ 31 := by decide +kernel
  have k1 : ∀ i, ∃ line, i < 7 → vectorsWots P (1 + i * 3) = some line ∧ ∀ e ∈ Registry.xmss, e.oid = 3 * i + 1 → IsWotsLine P e line := by
    intro i
    by_cases hi : i < 7
    · obtain ⟨e, he, ho, _⟩ := hx i hi
      obtain ⟨line, h1, h2⟩ := C68_wots_line (P := P) e he
      refine ⟨line, fun _ => ⟨by rw [← h1, ho]; congr 1; omega, fun e' he' ho' => ?_⟩⟩
      rwa [List.inj_on_of_nodup_map xmss_oid_nodup he' he (by rw [ho, ho'])]
    · exact ⟨"", fun h => absurd h hi⟩
  have k2 : ∀ i, ∃ line, i < 7 → vectorsXmss P (g true (2 + i * 8)) (2 + i * 8) true = some line ∧
      ∀ e ∈ Registry.xmssmt, e.oid = 8 * i + 2 → IsXmssLine P "XMSSMT" e line := by
    intro i
    by_cases hi : i < 7
    · obtain ⟨e, he, ho, h31⟩ := hm i hi
      obtain ⟨line, h1, h2⟩ := C68_xmss_line (P := P) (f := .xmssmt) e he h31 (g true (2 + i * 8)) (hg _ _)
      refine ⟨line, fun _ => ⟨by rw [← h1, ho, show 2 + i * 8 = 8 * i + 2 by omega]; rfl, fun e' he' ho' => ?_⟩⟩
      rwa [List.inj_on_of_nodup_map xmssmt_oid_nodup he' he (by rw [ho, ho'])]
    · exact ⟨"", fun h => absurd h hi⟩
  have k3 : ∀ i, ∃ line, i < 7 → vectorsXmss P (g false (1 + i * 3)) (1 + i * 3) false = some line ∧
      ∀ e ∈ Registry.xmss, e.oid = 3 * i + 1 → IsXmssLine P "XMSS" e line := by
    intro i
    by_cases hi : i < 7
    · obtain ⟨e, he, ho, h31⟩ := hx i hi
      obtain ⟨line, h1, h2⟩ := C68_xmss_line (P := P) (f := .xmss) e he h31 (g false (1 + i * 3)) (hg _ _)
      refine ⟨line, fun _ => ⟨by rw [← h1, ho, show 1 + i * 3 = 3 * i + 1 by omega]; rfl, fun e' he' ho' => ?_⟩⟩
      rwa [List.inj_on_of_nodup_map xmss_oid_nodup he' he (by rw [ho, ho'])]
    · exact ⟨"", fun h => absurd h hi⟩
  choose L1 h1 using k1
  choose L2 h2 using k2
  choose L3 h3 using k3
  have a1 := forOids_eq (vectorsWots P) 0x15 3 L1 7 100 0 1 (by omega) (by omega)
    (fun i hi => ⟨by omega, by rw [zero_add]; exact (h1 i hi).1⟩)
  have a2 := forOids_eq (fun oid => vectorsXmss P (g true oid) oid true) 56 8 L2 7 100 0 2 (by omega) (by omega)
    (fun i hi => ⟨by omega, by rw [zero_add]; exact (h2 i hi).1⟩)
  have a3 := forOids_eq (fun oid => vectorsXmss P (g false oid) oid false) 0x15 3 L3 7 100 0 1 (by omega) (by omega)
    (fun i hi => ⟨by omega, by rw [zero_add]; exact (h3 i hi).1⟩)
  refine ⟨(List.range' 0 7).map L1 ++ (List.range' 0 7).map L2 ++ (List.range' 0 7).map L3, ?_, by simp, ?_⟩
  · rw [vectorsMain, a1, a2, a3]
    simp [String.join_append, String.append_assoc]
  intro i hi
  refine ⟨fun e he ho line hl => ?_, fun e he ho line hl => ?_, fun e he ho line hl => ?_⟩
  · rw [List.append_assoc, List.getElem?_append_left (by simpa using hi), List.getElem?_map, List.getElem?_range' hi] at hl
    simp only [Option.map_some, Option.some.injEq, zero_add, one_mul] at hl
    rw [← hl]; exact (h1 i hi).2 e he ho
  · rw [List.append_assoc, List.getElem?_append_right (by simp), List.getElem?_append_left (by simpa using hi)] at hl
    simp only [List.length_map, List.length_range', Nat.add_sub_cancel_left, List.getElem?_map, List.getElem?_range' hi,
      Option.map_some, Option.some.injEq, zero_add, one_mul] at hl
    rw [← hl]; exact (h2 i hi).2 e he ho
  · rw [List.getElem?_append_right (by simp)] at hl
    simp only [List.length_append, List.length_map, List.length_range', show 14 + i - (7 + 7) = i by omega, List.getElem?_map,
      List.getElem?_range' hi, Option.map_some, Option.some.injEq, zero_add, one_mul] at hl
    rw [← hl]; exact (h3 i hi).2 e he ho

/-- Calling the function for the sets of height 40 or 60 would be undefined behaviour (`1 << 39` in an `int`); main does not. -/
theorem C68_high_trees_undefined (e : Registry.Entry) (he : e ∈ f.registry) (h32 : 32 ≤ e.h) (g : Garbage) :
    vectorsXmss P g e.oid (f = .xmssmt) = none := by
  obtain ⟨hp, _⟩ := registry_parse he
  obtain ⟨H, hc, hH, _⟩ := C53_hash_function (P := P) he
  set p := params16 slowSkBytes (funcOf e.family) e.n e.pad e.h e.d 0 with hpdef
  have hcore : coreHash P p.func p.n = some H := hc
  have hh : p.full_height = e.h := rfl
  have hparse : (if decide (f = .xmssmt) = true then xmssmtParseOid slowSkBytes e.oid else xmssParseOid slowSkBytes e.oid) = some p := by
    cases f with
    | xmss => rw [if_neg (by simp)]; exact hp
    | xmssmt => rw [if_pos (by simp)]; exact hp
  have e2 : shiftInt (p.full_height - 1) = none := by rw [shiftInt, if_neg (by omega)]
  rw [vectorsXmss, hparse]
  simp only [Option.bind_eq_bind, Option.bind_some, hcore, e2, Option.bind_none, Option.bind_fun_none]

/-! ### Non-vacuity -/

-- The parameter sets of the lines.
example : (Registry.xmss.filter fun e => e.oid % 3 = 1).map (·.name) = ["XMSS-SHA2_10_256", "XMSS-SHA2_10_512", "XMSS-SHAKE_10_256",
    "XMSS-SHAKE_10_512", "XMSS-SHA2_10_192", "XMSS-SHAKE256_10_256", "XMSS-SHAKE256_10_192"] := by decide +kernel
example : (Registry.xmssmt.filter fun e => e.oid % 8 = 2).map (·.name) = ["XMSSMT-SHA2_20/4_256", "XMSSMT-SHA2_20/4_512",
    "XMSSMT-SHAKE_20/4_256", "XMSSMT-SHAKE_20/4_512", "XMSSMT-SHA2_20/4_192", "XMSSMT-SHAKE256_20/4_256", "XMSSMT-SHAKE256_20/4_192"] := by
  decide +kernel
example : Fresh (fun k => List.replicate k 7) := fun k => by simp
example : printHex [0x0a, 0xf7] = "0af7" := by decide +kernel

end Xmss
