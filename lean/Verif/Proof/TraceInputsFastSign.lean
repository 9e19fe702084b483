import Verif.Proof.TraceInputsFast
import Verif.Proof.TraceInputsSign
import Verif.Proof.FastXmss
import Verif.Proof.MtSign
/-
What signing and key generation of the fast implementation hash (xmss_core_fast.c).
-/
namespace Xmss
open Tr Sched

variable {H : Bytes → Bytes} {p : Params} {skSeed seed : Bytes}

namespace TI
open Inputs

/-! ### XMSS -/

/-- The part of both sign functions before the traversal: randomizer and message hash. -/
theorem fastXmssSignBody_ht (g : p.Good) (hH : ∀ x, (H x).length = p.n) (hd : p.d = 1) (hib : p.index_bytes = 4)
    {sk sm M skPrf root : Bytes} {idx : Nat} {s : BdsState} {sigs : List Bytes}
    (h1 : rd sk p.index_bytes p.n = some skSeed) (h2 : rd sk (p.index_bytes + p.n) p.n = some skPrf)
    (h3 : rd sk (p.index_bytes + 2 * p.n) p.n = some root) (h4 : rd sk (p.index_bytes + 3 * p.n) p.n = some seed)
    (hidx : idx < 2 ^ p.full_height)
    (hst : ∀ a, IsSub a 0 0 → idx < (1 <<< p.tree_height) - 1 → HT (TreeQ H p skSeed seed) (do
      let s ← bdsRoundT H p s idx skSeed seed a
      let r ← bdsTreehashUpdateT H p s (p.insts >>> 1) skSeed seed a
      Pure.pure r.1) fun _ => True) :
    HT (SignQ H p skSeed seed skPrf root idx M) (fastXmssSignBodyT H p sk sm M s sigs idx) (fun _ => True) := by
  have t1 := rd_length h1
  have t2 := rd_length h2
  have t3 := rd_length h3
  have t4 := rd_length h4
  have hfull : p.full_height = p.tree_height := by
    have := g.height; rw [hd, mul_one] at this; exact this.symm
  rw [fastXmssSignBodyT]
  refine HT.optE h1 (HT.optE h2 (HT.optE h4 ?_))
  refine HT.optBind fun sk1 hsk1 => ?_
  have lu : (ullToBytes 4 (idx + 1)).length = 4 := ullToBytes_length _ _
  refine HT.bind (R := fun r => r = (suiteOf p H).PRF skPrf (Rfc.toByte idx 32)) (HT.mono (HT.core ⟨?_, ?_⟩) ?_) fun r hr => ?_
  · simp only [prfInput, List.length_append, ullToBytes_length, t2]
  · have e : prfInput p (ullToBytes 32 idx) skPrf = Rfc.toByte 3 p.padding_len ++ skPrf ++ Rfc.toByte idx 32 := by
      simp only [prfInput, ullToBytes_eq, padPrf]
    rw [e]
    exact SignCall.randomizer
  · intro a ha
    rw [ha, ← ullToBytes_eq, ← prf_eq]
    rfl
  · have hrl : r.length = p.n := by rw [hr]; exact hH _
    refine HT.optBind fun sm1 hsm1 => ?_
    rw [rd_wr_ne hsk1 (by omega), h3]
    refine HT.optE rfl (HT.ite (fun _ => HT.none) fun hle => ?_)
    refine HT.bind (hashMessage_ht hH hrl t3 (M := M) ?_ ?_) fun hm hml => ?_
    · rw [show p.sig_bytes - p.padding_len - 3 * p.n + p.padding_len + 3 * p.n = p.sig_bytes by omega]
      exact rd_wr_same hsm1
    · intro x hx
      refine ⟨rfl, ?_⟩
      rw [hx, hr]
      exact SignCall.message
    · refine HT.optBind fun sm2 _ => HT.optBind fun sm3 _ => ?_
      have hots : IsOts (setOtsAddr (setType Addr.zero typeOts) idx) 0 0 idx := ⟨rfl, rfl, rfl, rfl, rfl⟩
      have tq : ∀ c, TreeQ H p skSeed seed c → SignQ H p skSeed seed skPrf root idx M c := fun c hc => ⟨hc.1, SignCall.tree hc.2⟩
      have hw := wotsSign_ht (H := H) (skSeed := skSeed) (seed := seed) g hH t1 t4 (layer := 0) (tree := 0) (leaf := idx)
        ⟨by omega, Nat.two_pow_pos _, by rw [← hfull]; exact hidx⟩ hml hots
      refine HT.bind (HT.weaken hw tq) fun w hwv => ?_
      have w2 := (wotsSign_eq (H := H) g (layer := 0) (tree := 0) (ots := idx) skSeed seed hml _ hots).2
      refine HT.optBind fun _ _ => HT.optBind fun _ _ => ?_
      rw [hwv]
      refine HT.bind (R := fun _ => True) ?_ fun _ _ => HT.optBind fun _ _ => HT.optBind fun _ _ => HT.pureAny
      exact HT.ite (fun hi => HT.weaken (hst _ ⟨w2.h0, w2.h1, w2.h2⟩ hi) tq) fun _ => HT.pureAny


theorem keyZero_valid (p : Params) : (Key.zero p).Valid p := ⟨by simp [Key.zero], by simp [Key.zero], by simp [Key.zero], by simp [Key.zero]⟩

/-- The head of the key that is signed with, and what is behind it. -/
theorem used_reads {k : Key} (hk : k.Valid p) {ib : Bytes} (hib : ib.length = p.index_bytes) (y : Bytes) :
    rd (skHead ib k.skSeed k.skPrf k.root k.pubSeed ++ y) p.index_bytes p.n = some k.skSeed ∧
    rd (skHead ib k.skSeed k.skPrf k.root k.pubSeed ++ y) (p.index_bytes + p.n) p.n = some k.skPrf ∧
    rd (skHead ib k.skSeed k.skPrf k.root k.pubSeed ++ y) (p.index_bytes + 2 * p.n) p.n = some k.root ∧
    rd (skHead ib k.skSeed k.skPrf k.root k.pubSeed ++ y) (p.index_bytes + 3 * p.n) p.n = some k.pubSeed := by
  obtain ⟨_, r1, r2, r3, r4, _⟩ := skPhase (p := p) y hib hk.skSeed hk.skPrf hk.root hk.pubSeed 0
  exact ⟨r1, r2, r3, r4⟩

theorem wiped_head {k : Key} (hk : k.Valid p) {idx : Nat} {y : Bytes}
    (hl : p.sk_bytes = p.index_bytes + 4 * p.n + y.length) :
    wipeKey p (skHead (Rfc.toByte idx p.index_bytes) k.skSeed k.skPrf k.root k.pubSeed ++ y) =
      some (skHead (List.replicate p.index_bytes 0xFF) (Key.zero p).skSeed (Key.zero p).skPrf (Key.zero p).root (Key.zero p).pubSeed ++
      List.replicate y.length 0) := by
  rw [← wipe_head]
  simp only [skHead, List.append_assoc]
  apply wipeKey_eq _ _ (toByte_length _ _) (l := 4 * p.n + y.length)
  · simp only [List.length_append, hk.skSeed, hk.skPrf, hk.root, hk.pubSeed]; omega
  · omega

theorem fastXmssSign_ht (f : Fast1 p) (hH : ∀ x, (H x).length = p.n) {k : Key} (hk : k.Valid p) {idx : Nat}
    (hidx : idx < 256 ^ p.index_bytes) {s : BdsState} (sh : Shape p s)
    (hr : idx < 2 ^ p.full_height - 1 → Ready p ((suiteOf p H).node k.skSeed k.pubSeed 0 0) [] idx s) {sm M : Bytes} {l0 : Nat} :
    HT (fun c => SignQ H p (usedKey p k idx).skSeed (usedKey p k idx).pubSeed (usedKey p k idx).skPrf (usedKey p k idx).root idx M c ∧
        idx < 2 ^ p.full_height)
      (fastXmssSignT H p (k.fast p idx [s] []) sm l0 M) (fun _ => True) := by
  have g := f.good
  have hth := g.th_lt
  have hfull := f.full
  have hds := deserialize_eq (f.extShape sh) (skHead (Rfc.toByte idx p.index_bytes) k.skSeed k.skPrf k.root k.pubSeed) []
    (skHead_length (toByte_length _ _) hk.skSeed hk.skPrf hk.root hk.pubSeed)
  rw [List.append_nil] at hds
  obtain ⟨r1, -⟩ := skPhase (p := p) (extBytes [s] []) (toByte_length idx p.index_bytes) hk.skSeed hk.skPrf hk.root hk.pubSeed 0
  have r1' : rd (skHead (Rfc.toByte idx p.index_bytes) k.skSeed k.skPrf k.root k.pubSeed ++ extBytes [s] []) 0 4 =
    some (Rfc.toByte idx p.index_bytes) := by rw [← r1, f.ib]
  rw [Key.fast, fastXmssSignT, if_neg (by omega)]
  refine HT.optE hds ?_
  simp only [List.map_cons, List.map_nil, List.getElem?_cons_zero]
  refine HT.optE rfl (HT.optE r1' ?_)
  rw [bytesToUll_eq (by rw [toByte_length]; exact g.idx_le), toNat_toByte, Nat.mod_eq_of_lt hidx]
  refine HT.optE rfl (HT.ite (fun _ => HT.none) fun _ => ?_)
  have hpos := Nat.two_pow_pos p.full_height
  refine HT.ite (fun hlast => ?_) fun hlast => ?_
  · rw [wiped_head hk (by rw [ext1_length sh, f.sk, fastSkBytes, f.d]; omega)]
    refine HT.optE rfl (HT.ite (fun _ => HT.pureAny) fun hl => ?_)
    have hi : idx < 2 ^ p.full_height := by omega
    rw [usedKey, if_neg (by omega)]
    obtain ⟨q1, q2, q3, q4⟩ := used_reads (keyZero_valid p) (ib := List.replicate p.index_bytes 0xFF) (by simp)
      (List.replicate (extBytes [s] []).length 0)
    refine HT.weaken (fastXmssSignBody_ht g hH f.d f.ib q1 q2 q3 q4 hi ?_) fun c hc => ⟨hc, hi⟩
    intro a ha hlt
    rw [Nat.one_shiftLeft, ← hfull] at hlt
    omega
  · have hi : idx < 2 ^ p.full_height := by omega
    rw [usedKey, if_pos (by omega)]
    obtain ⟨q1, q2, q3, q4⟩ := used_reads hk (toByte_length idx p.index_bytes) (extBytes [s] [])
    refine HT.weaken (fastXmssSignBody_ht g hH f.d f.ib q1 q2 q3 q4 hi ?_) fun c hc => ⟨hc, hi⟩
    intro a ha hlt
    have hr := (hr (by omega)).with_leaves 0
    exact hr.step_ht (treeCtx_suite g hH k.skSeed k.pubSeed 0 0)
      (callCtx_suite g hH hk.skSeed hk.pubSeed ⟨by rw [f.d]; omega, Nat.two_pow_pos _⟩) hth ha (by rw [hfull] at hlast; omega) _

/-- The seed is copied to the key. -/
theorem seeds_of_key {sk sk1 sk2 rnd seed2 seed3 a b : Bytes} {off n : Nat} (h2 : rd rnd 0 (2 * n) = some seed2)
    (w1 : wr sk off seed2 = some sk1) (h3 : rd rnd (2 * n) n = some seed3) (w2 : wr sk1 (off + 3 * n) seed3 = some sk2)
    (ha : rd sk2 off n = some a) (hb : rd sk2 (off + 3 * n) n = some b) :
    a = rnd.take n ∧ b = (rnd.drop (2 * n)).take n := by
  have l2 := rd_length h2
  have l3 := rd_length h3
  have e6 := rd_wr_same w2
  rw [l3, hb] at e6
  cases e6
  rw [rd_wr_ne w2 (by omega)] at ha
  have e3 := rd_wr_same w1
  rw [l2, two_mul] at e3
  obtain ⟨x1, x2, a1, a2, ax⟩ := rd_split e3
  rw [ha] at a1
  cases a1
  rw [two_mul] at h2
  obtain ⟨y1, y2, b1, b2, bx⟩ := rd_split h2
  have lx := rd_length ha
  have ly := rd_length b1
  have exy : a = y1 := (List.append_inj (ax.symm.trans bx) (by rw [lx, ly])).1
  rw [rd_eq_some_iff] at b1 h3
  exact ⟨by rw [exy, b1.2, List.drop_zero], h3.2⟩

theorem fastXmssKeypair_ht (f : Fast1 p) (hH : ∀ x, (H x).length = p.n) {pk sk rnd : Bytes} (hsk : sk.length = p.sk_bytes) :
    HT (TreeQ H p (rnd.take p.n) ((rnd.drop (2 * p.n)).take p.n)) (fastXmssKeypairT H p pk sk rnd) (fun _ => True) := by
  have g := f.good
  obtain ⟨states, sigs, e, sh, _, _⟩ := deserialize_any (p := p) sk (by rw [hsk, f.sk])
  have hst : states.length = 1 := by rw [sh.states_len, f.d]
  obtain ⟨s0, rfl⟩ := List.length_eq_one_iff.mp hst
  have sh0 := sh.states_mem s0 (by simp)
  have sh1 : Shape p { s0 with stackoffset := 0, nextLeaf := 0 } :=
    ⟨sh0.stack_len, sh0.stack_mem, sh0.levels_len, sh0.levels_mem, sh0.auth_len, sh0.auth_mem, sh0.keep_len, sh0.keep_mem,
      sh0.insts_len, sh0.insts_mem, sh0.retain_len, sh0.retain_mem, by simp, by simp⟩
  rw [fastXmssKeypairT]
  refine HT.ite (fun _ => HT.none) fun hth => HT.optE e (HT.optE (List.getElem?_cons_zero ..) ?_)
  refine HT.optBind fun sk0 h0 => HT.optBind fun s2 h2 => HT.optBind fun sk2 h3 => HT.optBind fun s3 h4 => HT.optBind fun sk3 h5 => ?_
  refine HT.optBind fun pub h6 => HT.optBind fun pk1 h7 => HT.optBind fun sks h8 => HT.optBind fun pub' h9 => ?_
  obtain ⟨e1, e2⟩ := seeds_of_key h2 h3 h4 h5 h8 h9
  rw [← e1, ← e2]
  refine HT.bind (treehashInit_ht (treeCtx_suite g hH sks pub' 0 0)
      (callCtx_suite g hH (rd_length h8) (rd_length h9) ⟨by rw [f.d]; omega, Nat.two_pow_pos _⟩) (by omega) f.th f.k ⟨rfl, rfl, rfl⟩ sh1) fun _ _ => ?_
  exact HT.optBind fun _ _ => HT.optBind fun _ _ => HT.optBind fun _ _ => HT.optBind fun _ _ => HT.pureAny

end TI
end Xmss
