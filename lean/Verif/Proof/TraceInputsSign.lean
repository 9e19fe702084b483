import Verif.Proof.TraceInputs
import Verif.Proof.TraceMap
import Verif.Spec.Keys
/-
What signing and key generation hash (xmss_core.c).
-/
namespace Xmss
open Tr

theorem rd_wr_same {b b' x : Bytes} {off : Nat} (h : wr b off x = some b') : rd b' off x.length = some x := by
  have hl := wr_length h
  unfold wr at h
  split at h
  · rename_i hle
    have e : b' = b.take off ++ x ++ b.drop (off + x.length) := (Option.some.inj h).symm
    rw [e]
    exact rd_append _ _ _ (by simp; omega) rfl
  · cases h

theorem rd_wr_ne {b b' x : Bytes} {off off' len : Nat} (h : wr b off x = some b') (hd : off' + len ≤ off ∨ off + x.length ≤ off') :
    rd b' off' len = rd b off' len := by
  have hl := wr_length h
  unfold wr at h
  split at h
  · rename_i hle
    have e : b' = b.take off ++ x ++ b.drop (off + x.length) := (Option.some.inj h).symm
    unfold rd
    rw [hl]
    split
    · congr 1
      apply List.ext_getElem?
      intro i
      rw [List.getElem?_take, List.getElem?_take]
      split
      · rename_i hi
        rw [List.getElem?_drop, List.getElem?_drop, e, List.append_assoc]
        rcases hd with hd | hd
        · rw [List.getElem?_append_left (by simp; omega), List.getElem?_take, if_pos (by omega)]
        · rw [List.getElem?_append_right (by simp; omega), List.getElem?_append_right (by simp; omega), List.getElem?_drop]
          congr 1
          simp
          omega
      · rfl
    · rfl
  · cases h

theorem rd_split {b x : Bytes} {off k l : Nat} (h : rd b off (k + l) = some x) :
    ∃ x1 x2, rd b off k = some x1 ∧ rd b (off + k) l = some x2 ∧ x = x1 ++ x2 := by
  rw [rd_eq_some_iff] at h
  refine ⟨_, _, rd_some (by omega), rd_some (by omega), ?_⟩
  rw [h.2, List.take_add, List.drop_drop]

namespace HT
variable {α β : Type} {Q : Nat × Bytes → Prop}

/-- The value is also the value of the function with the record of lengths. -/
theorem withVal {t : TrG (Nat × Bytes) α} {R : α → Prop} (h : HT Q t R) : HT Q t (fun a => R a ∧ val (lens t) = some a) := by
  intro a l e
  refine ⟨⟨(h a l e).1, ?_⟩, (h a l e).2⟩
  rw [e]
  rfl

/-- For a branch of which only the value matters. -/
theorem prep {t : TrG (Nat × Bytes) α} {R : α → Prop} (h : ∀ a l, t = mk a l → HT Q t R) : HT Q t R := fun a l e => h a l e a l e
end HT

variable {H : Bytes → Bytes} {p : Params} {skSeed seed : Bytes}

namespace TI
open Inputs

theorem signLayers_ht (g : p.Good) (hH : ∀ x, (H x).length = p.n) (hk1 : skSeed.length = p.n) (hs : seed.length = p.n) :
    ∀ (k i idx : Nat) (a : Addr) (M sm : Bytes) (off : Nat), i + k = p.d → idx < 2 ^ (p.full_height - i * p.tree_height) →
      a.a3 = UInt32.ofNat 0 → M.length = p.n →
      HT (TreeQ H p skSeed seed) (signLayersT H p skSeed seed k i idx a M sm off) (fun _ => True)
  | 0, _, _, _, _, _, _, _, _, _, _ => HT.pure trivial
  | k + 1, i, idx, a, M, sm, off, hk, hidx, ha, hM => by
    rw [signLayersT, leafOf_eq g]
    refine HT.optBind fun lf hlf => ?_
    obtain rfl := Option.some.inj hlf
    rw [Nat.shiftRight_eq_div_pow]
    set lf := idx % 2 ^ p.tree_height with hlf
    set tr := idx / 2 ^ p.tree_height with htr
    have hlt : lf < 2 ^ p.tree_height := Nat.mod_lt _ (Nat.two_pow_pos _)
    have hfh : p.full_height = p.d * p.tree_height := by rw [← g.height, Nat.mul_comm]
    have hle : (i + 1) * p.tree_height ≤ p.full_height := by
      rw [hfh]; exact Nat.mul_le_mul_right _ (by omega)
    have htr' : tr < 2 ^ (p.full_height - (i + 1) * p.tree_height) := by
      apply Nat.div_lt_of_lt_mul
      rw [← pow_add]
      have : p.tree_height + (p.full_height - (i + 1) * p.tree_height) = p.full_height - i * p.tree_height := by
        rw [Nat.add_mul] at hle ⊢; omega
      rw [this]; exact hidx
    have hots : IsOts (setOtsAddr (setTreeAddr (setLayerAddr a i) tr) lf) i tr lf := ⟨rfl, rfl, rfl, ha, rfl⟩
    obtain ⟨w1, w2⟩ := wotsSign_eq (H := H) g (layer := i) (tree := tr) (ots := lf) skSeed seed hM _ hots
    refine HT.bind (wotsSign_ht g hH hk1 hs ⟨by omega, htr', hlt⟩ hM hots) fun w hw => ?_
    rw [hw]
    refine HT.optBind fun sm1 _ => HT.optBind fun old _ => ?_
    refine HT.bind (HT.withVal (treehash_ht g hH hk1 hs (layer := i) (tree := tr) (leafIdx := lf) (by omega) htr'
      ⟨w2.h0, w2.h1, w2.h2⟩)) fun t ht => ?_
    have ht := ht.2
    rw [Lens.treehashT, treehashT_eq, val_lift, treehash_eq g hH skSeed seed hlt _ _ w2.h0 w2.h1 w2.h2 (chunks_length _ _ _)] at ht
    rw [← Option.some.inj ht]
    refine HT.optBind fun sm2 _ => ?_
    exact signLayers_ht g hH hk1 hs k (i + 1) tr _ _ _ _ (by omega) htr' w2.h3 (treeRoot_length g hH _ _ _ _)

/-- The message part: in the buffer there is room for the prefix, `R`, the root and the index before the message. -/
theorem hashMessage_ht (hH : ∀ x, (H x).length = p.n) {R root : Bytes} (hR : R.length = p.n) (hroot : root.length = p.n) {idx : Nat} {buf M : Bytes} {off : Nat}
    (hM : rd buf (off + p.padding_len + 3 * p.n) M.length = some M) {Q : Nat × Bytes → Prop}
    (hQ : ∀ x, x = Rfc.toByte 2 p.padding_len ++ (R ++ root ++ Rfc.toByte idx p.n) ++ M → Q (x.length, x)) :
    HT Q (hashMessageT H p R root idx buf off M.length) (fun r => r.1.length = p.n) := by
  rw [hashMessageT]
  refine HT.optBind fun b1 h1 => HT.optBind fun b2 h2 => HT.optBind fun b3 h3 => HT.optBind fun b4 h4 => HT.optBind fun x hx => ?_
  have l1 : (ullToBytes p.padding_len padHash).length = p.padding_len := ullToBytes_length _ _
  have l4 : (ullToBytes p.n idx).length = p.n := ullToBytes_length _ _
  have e : x = Rfc.toByte 2 p.padding_len ++ (R ++ root ++ Rfc.toByte idx p.n) ++ M := by
    rw [show M.length + p.padding_len + 3 * p.n = p.padding_len + (p.n + (p.n + (p.n + M.length))) by omega] at hx
    obtain ⟨x1, y1, a1, b1', rfl⟩ := rd_split hx
    obtain ⟨x2, y2, a2, b2', rfl⟩ := rd_split b1'
    obtain ⟨x3, y3, a3, b3', rfl⟩ := rd_split b2'
    obtain ⟨x4, y4, a4, b4', rfl⟩ := rd_split b3'
    have s1 := rd_wr_same h1
    rw [l1] at s1
    rw [rd_wr_ne h4 (by omega), rd_wr_ne h3 (by omega), rd_wr_ne h2 (by omega), s1] at a1
    have s2 := rd_wr_same h2
    rw [hR] at s2
    rw [rd_wr_ne h4 (by omega), rd_wr_ne h3 (by omega), s2] at a2
    have s3 := rd_wr_same h3
    rw [hroot] at s3
    rw [rd_wr_ne h4 (by omega), show off + p.padding_len + p.n = off + p.padding_len + p.n from rfl, s3] at a3
    have s4 := rd_wr_same h4
    rw [l4] at s4
    rw [show off + p.padding_len + p.n + p.n = off + p.padding_len + 2 * p.n by omega, s4] at a4
    rw [show off + p.padding_len + p.n + p.n + p.n = off + p.padding_len + 3 * p.n by omega, rd_wr_ne h4 (by omega), rd_wr_ne h3 (by omega),
      rd_wr_ne h2 (by omega), rd_wr_ne h1 (by omega), hM] at b4'
    cases a1; cases a2; cases a3; cases a4; cases b4'
    simp only [ullToBytes_eq, padHash, List.append_assoc]
  have hl := rd_length hx
  refine HT.bind (HT.core ?_) fun h hh => HT.pure ?_
  · rw [← hl]
    exact hQ x e
  · show h.length = p.n
    rw [hh]; exact hH _

/-- A call made for the signature number `idx` on `M`. -/
def SignQ (H : Bytes → Bytes) (p : Params) (skSeed seed skPrf root : Bytes) (idx : Nat) (M : Bytes) (c : Nat × Bytes) : Prop :=
  c.1 = c.2.length ∧ SignCall (suiteOf p H) skSeed seed skPrf root idx M c.2

theorem coreSignBody_ht (g : p.Good) (hH : ∀ x, (H x).length = p.n) {sk sm M skPrf root : Bytes} {idx : Nat}
    (h1 : rd sk p.index_bytes p.n = some skSeed) (h2 : rd sk (p.index_bytes + p.n) p.n = some skPrf)
    (h3 : rd sk (p.index_bytes + 2 * p.n) p.n = some root) (h4 : rd sk (p.index_bytes + 3 * p.n) p.n = some seed)
    (hM : rd sm p.sig_bytes M.length = some M) (hidx : idx < 2 ^ p.full_height) :
    HT (SignQ H p skSeed seed skPrf root idx M) (coreSignBodyT H p sk sm M.length idx) (fun _ => True) := by
  have t1 := rd_length h1
  have t2 := rd_length h2
  have t3 := rd_length h3
  have t4 := rd_length h4
  rw [coreSignBodyT]
  refine HT.optBind fun ib hib => HT.optBind fun sm1 hsm1 => HT.optBind fun sk1 hsk1 => ?_
  have li := rd_length hib
  have lu : (ullToBytes p.index_bytes (idx + 1)).length = p.index_bytes := ullToBytes_length _ _
  rw [rd_wr_ne hsk1 (by omega), rd_wr_ne hsk1 (by omega), rd_wr_ne hsk1 (by omega), rd_wr_ne hsk1 (by omega), h1, h2, h3, h4]
  refine HT.optBind fun _ e => ?_; cases e
  refine HT.optBind fun _ e => ?_; cases e
  refine HT.optBind fun _ e => ?_; cases e
  refine HT.optBind fun _ e => ?_; cases e
  have hsb : p.padding_len + 3 * p.n ≤ p.sig_bytes → p.index_bytes + p.n ≤ p.sig_bytes := by
    intro _
    have := g.sig_eq
    rw [this]
    omega
  refine HT.bind (R := fun r => r = (suiteOf p H).PRF skPrf (Rfc.toByte idx 32)) (HT.mono (HT.core ⟨?_, ?_⟩) ?_) fun r hr => ?_
  · simp only [prfInput, List.length_append, ullToBytes_length, t2]
  · have e : prfInput p (ullToBytes 32 idx) skPrf = Rfc.toByte 3 p.padding_len ++ skPrf ++ Rfc.toByte idx 32 := by
      simp only [prfInput, ullToBytes_eq, padPrf]
    rw [e]
    exact SignCall.randomizer
  · intro a ha
    rw [ha, ← ullToBytes_eq, ← prf_eq]
    rfl
  · have hrl : r.length = p.n := by rw [hr]; exact hH _
    refine HT.optBind fun sm2 hsm2 => ?_
    have hR := rd_wr_same hsm2
    rw [hrl] at hR
    rw [hR]
    refine HT.optBind fun _ e => ?_; cases e
    refine HT.ite (fun _ => HT.none) fun hle => ?_
    have hsb := hsb (by omega)
    refine HT.bind (hashMessage_ht hH hrl t3 ?_ ?_) fun hm hml => ?_
    · rw [show p.sig_bytes - p.padding_len - 3 * p.n + p.padding_len + 3 * p.n = p.sig_bytes by omega, rd_wr_ne hsm2 (by omega),
        rd_wr_ne hsm1 (by omega)]
      exact hM
    · intro x hx
      refine ⟨rfl, ?_⟩
      rw [hx, hr]
      exact SignCall.message
    · refine HT.bind (HT.weaken (signLayers_ht g hH t1 t4 p.d 0 idx _ hm.1 hm.2 _ (by omega) (by simpa using hidx) rfl hml)
        fun c hc => ⟨hc.1, SignCall.tree hc.2⟩) fun _ _ => HT.pure trivial

/-- The key that `xmssmt_core_sign` signs with: with the last index it has already been overwritten. -/
def usedKey (p : Params) (k : Key) (idx : Nat) : Key := if idx < 2 ^ p.full_height - 1 then k else Key.zero p

theorem coreSign_ht (g : p.Good) (hsk : p.sk_bytes = p.index_bytes + 4 * p.n) (hH : ∀ x, (H x).length = p.n) {k : Key} (hk : k.Valid p)
    {idx : Nat} (hidx : idx < 256 ^ p.index_bytes) {sm M : Bytes} :
    HT (fun c => SignQ H p (usedKey p k idx).skSeed (usedKey p k idx).pubSeed (usedKey p k idx).skPrf (usedKey p k idx).root idx M c ∧
        idx < 2 ^ p.full_height)
      (coreSignT H p (Rfc.toByte idx p.index_bytes ++ k.skSeed ++ k.skPrf ++ k.root ++ k.pubSeed) sm M) (fun _ => True) := by
  rw [coreSignT]
  have hib : (Rfc.toByte idx p.index_bytes).length = p.index_bytes := toByte_length _ _
  have r0 : ∀ x : Bytes, rd (Rfc.toByte idx p.index_bytes ++ x) 0 p.index_bytes = some (Rfc.toByte idx p.index_bytes) := fun x =>
    rd_append [] _ x rfl hib.symm
  refine HT.optBind fun sm1 hsm => ?_
  have hM := rd_wr_same hsm
  simp only [List.append_assoc]
  rw [r0]
  refine HT.optBind fun _ e => ?_; cases e
  rw [bytesToUll_eq (by rw [hib]; exact g.idx_le), toNat_toByte, Nat.mod_eq_of_lt hidx]
  refine HT.optBind fun _ e => ?_; cases e
  have key : ∀ (ib : Bytes) (k : Key), ib.length = p.index_bytes → k.Valid p → idx < 2 ^ p.full_height →
      HT (fun c => SignQ H p k.skSeed k.pubSeed k.skPrf k.root idx M c ∧ idx < 2 ^ p.full_height)
        (coreSignBodyT H p (ib ++ (k.skSeed ++ (k.skPrf ++ (k.root ++ k.pubSeed)))) sm1 M.length idx) (fun _ => True) := by
    intro ib k hib hk hi
    refine HT.weaken (coreSignBody_ht g hH ?_ ?_ ?_ ?_ hM hi) fun c hc => ⟨hc, hi⟩
    · rw [← List.append_assoc]; exact rd_append _ _ _ hib.symm hk.skSeed.symm
    · rw [← List.append_assoc, ← List.append_assoc]
      exact rd_append _ _ _ (by simp [hib, hk.skSeed]) hk.skPrf.symm
    · rw [← List.append_assoc, ← List.append_assoc, ← List.append_assoc]
      exact rd_append _ _ _ (by simp [hib, hk.skSeed, hk.skPrf]; omega) hk.root.symm
    · have e := rd_append (ib ++ k.skSeed ++ k.skPrf ++ k.root) k.pubSeed [] (off := p.index_bytes + 3 * p.n) (len := p.n)
        (by simp [hib, hk.skSeed, hk.skPrf, hk.root]; omega) hk.pubSeed.symm
      rwa [List.append_nil, List.append_assoc, List.append_assoc, List.append_assoc] at e
  refine HT.ite (fun _ => HT.none) fun _ => ?_
  refine HT.optBind fun sk1 hsk1 => ?_
  have := Nat.two_pow_pos p.full_height
  refine HT.ite (fun _ => HT.pure trivial) fun hlast => ?_
  by_cases hlt : idx < 2 ^ p.full_height - 1
  · rw [if_neg (by omega)] at hsk1
    cases hsk1
    rw [usedKey, if_pos hlt]
    exact key _ k hib hk (by omega)
  · rw [if_pos (by omega), wipeKey_eq _ _ hib (l := 4 * p.n) (by simp [hk.skSeed, hk.skPrf, hk.root, hk.pubSeed]; omega) hsk] at hsk1
    cases hsk1
    rw [usedKey, if_neg hlt]
    have e : List.replicate (4 * p.n) (0 : UInt8) = (Key.zero p).skSeed ++ ((Key.zero p).skPrf ++ ((Key.zero p).root ++ (Key.zero p).pubSeed)) := by
      simp only [Key.zero, List.replicate_append_replicate]
      congr 1; omega
    rw [e]
    exact key _ (Key.zero p) (by simp) ⟨by simp [Key.zero], by simp [Key.zero], by simp [Key.zero], by simp [Key.zero]⟩ (by omega)

theorem coreSeedKeypair_ht (g : p.Good) (hH : ∀ x, (H x).length = p.n) {pk sk rnd : Bytes} :
    HT (TreeQ H p (rnd.take p.n) ((rnd.drop (2 * p.n)).take p.n)) (coreSeedKeypairT H p pk sk rnd) (fun _ => True) := by
  rw [coreSeedKeypairT]
  refine HT.optBind fun sk1 h1 => HT.optBind fun s2 h2 => HT.optBind fun sk2 h3 => HT.optBind fun s3 h4 => HT.optBind fun sk3 h5 => ?_
  refine HT.optBind fun pub h6 => HT.optBind fun pk1 h7 => HT.optBind fun sks h8 => HT.optBind fun pub' h9 => ?_
  have l2 := rd_length h2
  have l3 := rd_length h4
  have e6 := rd_wr_same h5
  rw [l3, h6] at e6
  cases e6
  have e9 := rd_wr_same h7
  rw [l3, h9] at e9
  cases e9
  rw [rd_wr_ne h5 (by omega)] at h8
  have e3 := rd_wr_same h3
  rw [l2, two_mul] at e3
  obtain ⟨x1, x2, a1, a2, ax⟩ := rd_split e3
  rw [h8] at a1
  cases a1
  rw [two_mul] at h2
  obtain ⟨y1, y2, b1, b2, bx⟩ := rd_split h2
  have lx := rd_length h8
  have ly := rd_length b1
  have exy : sks = y1 := (List.append_inj (ax.symm.trans bx) (by rw [lx, ly])).1
  rw [rd_eq_some_iff] at b1 h4
  have e1 : rnd.take p.n = sks := by rw [exy, b1.2, List.drop_zero]
  have e2 : (rnd.drop (2 * p.n)).take p.n = s3 := h4.2.symm
  rw [e1, e2]
  have hd := g.d_pos
  refine HT.bind (treehash_ht g hH lx l3 (layer := p.d - 1) (tree := 0) (by omega) (Nat.two_pow_pos _) ⟨rfl, rfl, rfl⟩) fun _ _ => ?_
  exact HT.optBind fun _ _ => HT.optBind fun _ _ => HT.optBind fun _ _ => HT.pure trivial

end TI
end Xmss
