import Verif.Proof.Trace
import Verif.Spec.Inputs
/-
What the functions of Model/Trace hash, for an honest key: partial correctness of the recorded functions.
-/
namespace Xmss
open Tr

/-- If `t` has a value then it satisfies `R`, and all recorded calls satisfy `Q`. -/
def HT {α : Type} (Q : Nat × Bytes → Prop) (t : TrG (Nat × Bytes) α) (R : α → Prop) : Prop :=
  ∀ a l, t = mk a l → R a ∧ ∀ c ∈ l, Q c

namespace HT
variable {α β : Type} {Q : Nat × Bytes → Prop}

theorem bind {t : TrG (Nat × Bytes) α} {f : α → TrG (Nat × Bytes) β} {R : α → Prop} {R' : β → Prop} (h : HT Q t R)
    (h' : ∀ a, R a → HT Q (f a) R') : HT Q (t >>= f) R' := by
  intro b l e
  cases ht : t with
  | none => rw [ht] at e; cases e
  | some r =>
    obtain ⟨a, l1⟩ := r
    have ht' : t = mk a l1 := ht
    rw [ht', bind_mk] at e
    cases hf : f a with
    | none => rw [hf] at e; cases e
    | some r' =>
      obtain ⟨b', l2⟩ := r'
      have hf' : f a = mk b' l2 := hf
      rw [hf', tell_mk] at e
      cases e
      obtain ⟨r1, r2⟩ := h a l1 ht'
      obtain ⟨s1, s2⟩ := h' a r1 _ l2 hf'
      refine ⟨s1, fun c hc => ?_⟩
      rcases List.mem_append.mp hc with hc | hc
      · exact r2 c hc
      · exact s2 c hc

theorem opt {o : Option α} {R : α → Prop} (h : ∀ a, o = some a → R a) : HT Q (Tr.opt o) R := by
  intro a l e
  cases o with
  | none => cases e
  | some b => cases e; exact ⟨h _ rfl, by simp⟩

theorem optBind {o : Option α} {f : α → TrG (Nat × Bytes) β} {R' : β → Prop} (h : ∀ a, o = some a → HT Q (f a) R') :
    HT Q (Tr.opt o >>= f) R' := bind (opt (R := fun a => o = some a) fun _ e => e) h

theorem pure {a : α} {R : α → Prop} (h : R a) : HT Q (Pure.pure a : TrG (Nat × Bytes) α) R := by
  intro b l e
  cases e
  exact ⟨h, by simp⟩

theorem none {R : α → Prop} : HT Q (Tr.opt Option.none : TrG (Nat × Bytes) α) R := by
  intro b l e
  cases e

theorem mono {t : TrG (Nat × Bytes) α} {R R' : α → Prop} (h : HT Q t R) (h' : ∀ a, R a → R' a) : HT Q t R' :=
  fun a l e => ⟨h' a (h a l e).1, (h a l e).2⟩

theorem weaken {t : TrG (Nat × Bytes) α} {R : α → Prop} {Q' : Nat × Bytes → Prop} (h : HT Q t R) (h' : ∀ c, Q c → Q' c) : HT Q' t R :=
  fun a l e => ⟨(h a l e).1, fun c hc => h' c ((h a l e).2 c hc)⟩

theorem ite {q : Prop} [Decidable q] {t u : TrG (Nat × Bytes) α} {R : α → Prop} (h1 : q → HT Q t R) (h2 : ¬ q → HT Q u R) :
    HT Q (if q then t else u) R := by
  split
  · exact h1 ‹_›
  · exact h2 ‹_›

theorem core {H : Bytes → Bytes} {n : Nat} {x : Bytes} (h : Q (n, x)) : HT Q (coreHashT H n x) (fun a => a = H x) := by
  intro a l e
  cases e
  exact ⟨rfl, by intro c hc; rw [List.mem_singleton] at hc; rw [hc]; exact h⟩
end HT

variable {H : Bytes → Bytes} {p : Params}

namespace TI
open Inputs

theorem setKM_setKM (a : Addr) (i j : Nat) : setKeyAndMask (setKeyAndMask a i) j = setKeyAndMask a j := rfl

/-- A call made for the trees of the key: the length passed is that of the string, and the string is one of the specification. -/
def TreeQ (H : Bytes → Bytes) (p : Params) (skSeed seed : Bytes) (c : Nat × Bytes) : Prop :=
  c.1 = c.2.length ∧ TreeCall (suiteOf p H) skSeed seed c.2

theorem adrs_length (pl : Spot) (km : Nat) : (pl.adrs km).length = 32 := by
  cases pl <;> simp [Spot.adrs, Rfc.Suite.otsAdrs, Rfc.Suite.ltreeAdrs, Rfc.Suite.treeAdrs, toByte_length]

variable {skSeed seed : Bytes}

theorem prf_ht (hs : seed.length = p.n) {pl : Spot} (hin : pl.In (suiteOf p H) skSeed seed) {km : Nat} (hk : km ≤ pl.masks) {b : Bytes}
    (hb : b = pl.adrs km) : HT (TreeQ H p skSeed seed) (prfT H p b seed) (fun a => a = prf H p b seed) := by
  subst hb
  refine HT.core ⟨?_, ?_⟩
  · simp only [prfInput, List.length_append, ullToBytes_length, adrs_length, hs]
  · have e : prfInput p (pl.adrs km) seed = Rfc.toByte 3 p.padding_len ++ seed ++ pl.adrs km := by
      simp only [prfInput, ullToBytes_eq, padPrf]
    rw [e]
    exact TreeCall.randomizer pl hin km hk

theorem thashF_ht (hH : ∀ x, (H x).length = p.n) (hs : seed.length = p.n) {a : Addr} {layer tree ots chain pos : Nat}
    (h : IsOts a layer tree ots) (h5 : a.a5 = UInt32.ofNat chain) (h6 : a.a6 = UInt32.ofNat pos) {x : Bytes}
    (hin : (Spot.chain layer tree ots chain pos).In (suiteOf p H) skSeed seed)
    (hx : x = (suiteOf p H).chain seed (Rfc.Suite.otsAdrs layer tree ots chain)
      ((suiteOf p H).wotsSk skSeed seed layer tree ots chain) 0 pos) (hxl : x.length = p.n) :
    HT (TreeQ H p skSeed seed) (thashFT H p x seed a) (fun r => r = thashF H p x seed a) := by
  have hk : ∀ km, addrToBytes (setKeyAndMask a km) = (Spot.chain layer tree ots chain pos).adrs km :=
    fun km => IsOts.bytes ⟨h.h0, h.h1, h.h2, h.h3, h.h4⟩ h5 h6 rfl
  rw [thashFT]
  refine HT.bind (prf_ht hs hin (km := 0) (by simp) (hk 0)) fun key hkey => ?_
  refine HT.bind (prf_ht hs hin (km := 1) (Nat.le_refl _) (hk 1)) fun mask hmask => ?_
  refine HT.bind (HT.core ⟨?_, ?_⟩) fun r hr => HT.pure ?_
  · simp only [List.length_append, ullToBytes_length, hkey, hmask, xorBytes, List.length_zipWith, prf, hH, hxl]
    omega
  · have e : ullToBytes p.padding_len padF ++ key ++ xorBytes x mask = (Spot.chain layer tree ots chain pos).input (suiteOf p H) skSeed seed := by
      rw [hkey, hmask, hk, setKM_setKM, hk, prf_eq, prf_eq, ullToBytes_eq, hx]
      simp [Spot.input, Spot.values, Spot.role, xorBytes, Rfc.xor, padF, suiteOf]
    rw [e]
    exact TreeCall.hash _ hin
  · rw [hr, hkey, hmask]
    rfl

theorem thashH_ht (hH : ∀ x, (H x).length = p.n) (hs : seed.length = p.n) {a : Addr} {pl : Spot}
    (hk : ∀ km, addrToBytes (setKeyAndMask a km) = pl.adrs km) (hr : pl.role = 1) (hm : pl.masks = 2)
    (hin : pl.In (suiteOf p H) skSeed seed) {l r : Bytes} (hv : pl.values (suiteOf p H) skSeed seed = [l, r]) (hl : l.length = p.n)
    (hrl : r.length = p.n) :
    HT (TreeQ H p skSeed seed) (thashHT H p (l ++ r) seed a) (fun o => o = thashH H p (l ++ r) seed a) := by
  rw [thashHT]
  refine HT.bind (prf_ht hs hin (km := 0) (by omega) (hk 0)) fun key hkey => ?_
  refine HT.bind (prf_ht hs hin (km := 1) (by omega) (hk 1)) fun mask0 hmask0 => ?_
  refine HT.bind (prf_ht hs hin (km := 2) (by omega) (hk 2)) fun mask1 hmask1 => ?_
  refine HT.bind (HT.core ⟨?_, ?_⟩) fun o ho => HT.pure ?_
  · simp only [List.length_append, ullToBytes_length, hkey, hmask0, hmask1, xorBytes, List.length_zipWith, prf, hH, hl, hrl]
    omega
  · have e : ullToBytes p.padding_len padH ++ key ++ xorBytes (l ++ r) (mask0 ++ mask1) = pl.input (suiteOf p H) skSeed seed := by
      rw [hkey, hmask0, hmask1, hk, setKM_setKM, setKM_setKM, hk, hk, prf_eq, prf_eq, prf_eq, ullToBytes_eq, Spot.input, hv, hr,
        xorBytes_append (by rw [hl]; exact (hH _).symm)]
      simp [padH, suiteOf]
    rw [e]
    exact TreeCall.hash _ hin
  · rw [ho, hkey, hmask0, hmask1]
    rfl

theorem thashH_node (g : p.Good) (hH : ∀ x, (H x).length = p.n) (hs : seed.length = p.n) {a : Addr} {layer tree height index : Nat}
    (h : IsTree a layer tree) (h5 : a.a5 = UInt32.ofNat height) (h6 : a.a6 = UInt32.ofNat index)
    (hin : (Spot.node layer tree height index).In (suiteOf p H) skSeed seed) {l r : Bytes}
    (hl : l = (suiteOf p H).node skSeed seed layer tree height (2 * index))
    (hr : r = (suiteOf p H).node skSeed seed layer tree height (2 * index + 1)) :
    HT (TreeQ H p skSeed seed) (thashHT H p (l ++ r) seed a) (fun o => o = thashH H p (l ++ r) seed a) :=
  thashH_ht hH hs (pl := .node layer tree height index)
    (fun km => IsTree.bytes ⟨h.h0, h.h1, h.h2, h.h3, h.h4⟩ h5 h6 rfl) rfl rfl hin (by rw [hl, hr]; rfl)
    (by rw [hl]; exact node_length g hH _ _ _ _ _ _) (by rw [hr]; exact node_length g hH _ _ _ _ _ _)

/-! ### wots.c -/

/-- The leaf exists. -/
structure LeafIn (p : Params) (layer tree leaf : Nat) : Prop where
  l : layer < p.d
  t : tree < 2 ^ (p.full_height - (layer + 1) * p.tree_height)
  i : leaf < 2 ^ p.tree_height

theorem chainIn (g : p.Good) {layer tree leaf c pos : Nat} (h : LeafIn p layer tree leaf) (hc : c < p.wots_len) (hp : pos < p.wots_w - 1) :
    (Spot.chain layer tree leaf c pos).In (suiteOf p H) skSeed seed := by
  refine ⟨h.l, ?_, ?_, ?_, hp⟩
  · rw [g.hp_eq]; exact h.t
  · rw [g.hp_eq]; exact h.i
  · rw [g.len_eq']; exact hc

theorem genChainLoop_ht (g : p.Good) (hH : ∀ x, (H x).length = p.n) (hs : seed.length = p.n) {layer tree leaf c : Nat}
    (hin : LeafIn p layer tree leaf) (hc : c < p.wots_len) : ∀ (k i : Nat) (x : Bytes) (a : Addr), i + k ≤ p.wots_w - 1 →
      IsOts a layer tree leaf → a.a5 = UInt32.ofNat c →
      x = (suiteOf p H).chain seed (Rfc.Suite.otsAdrs layer tree leaf c) ((suiteOf p H).wotsSk skSeed seed layer tree leaf c) 0 i →
      HT (TreeQ H p skSeed seed) (genChainLoopT H p seed k i x a) (fun r => r = genChainLoop H p seed k i x a)
  | 0, _, _, _, _, _, _, _ => HT.pure rfl
  | k + 1, i, x, a, hk, h, h5, hx => by
    rw [genChainLoopT]
    refine HT.bind (thashF_ht hH hs (h.setHash i) h5 rfl (chainIn g hin hc (by omega)) hx ?_) fun r hr => ?_
    · rw [hx]
      exact chain_length (suiteOf p H) hH _ _ (hH _) _ _
    · have e := thashF_ots (H := H) (p := p) (h.setHash i) h5 (rfl : (setHashAddr a i).a6 = UInt32.ofNat i) x seed
      have ha := thashF_addr (H := H) (p := p) x seed (setHashAddr a i)
      rw [genChainLoop, hr]
      refine genChainLoop_ht g hH hs hin hc k (i + 1) _ _ (by omega) ?_ ?_ ?_
      · rw [ha]; exact ⟨h.h0, h.h1, h.h2, h.h3, h.h4⟩
      · rw [ha]; exact h5
      · rw [e, hx, Rfc.Suite.chain, Nat.zero_add]

theorem expandSeedLoop_ht (g : p.Good) (hk1 : skSeed.length = p.n) (hs : seed.length = p.n) {layer tree leaf : Nat}
    (hin : LeafIn p layer tree leaf) : ∀ (k i : Nat) (a : Addr), i + k ≤ p.wots_len →
      IsOts a layer tree leaf → a.a6 = UInt32.ofNat 0 → a.a7 = UInt32.ofNat 0 →
      HT (TreeQ H p skSeed seed) (expandSeedLoopT H p skSeed seed k i a) (fun r => r = expandSeedLoop H p skSeed seed k i a)
  | 0, _, _, _, _, _, _ => HT.pure rfl
  | k + 1, i, a, hk, h, h6, h7 => by
    rw [expandSeedLoopT, expandSeedLoop]
    refine HT.bind (R := fun x => x = prfKeygen H p (seed ++ addrToBytes (setChainAddr a i)) skSeed) (HT.core ⟨?_, ?_⟩) fun n hn => ?_
    · simp only [prfKeygenInput, List.length_append, ullToBytes_length, addrToBytes_length, hs, hk1]
      omega
    · rw [(h.setChain i).bytes rfl h6 h7]
      have e : ∀ y : Bytes, prfKeygenInput p y skSeed = Rfc.toByte 4 p.padding_len ++ skSeed ++ y := by
        intro y; simp only [prfKeygenInput, ullToBytes_eq, padPrfKeygen]
      rw [e]
      have := g.w_ge
      exact TreeCall.secret layer tree leaf i (chainIn g hin (by omega) (by omega))
    · refine HT.bind (expandSeedLoop_ht g hk1 hs hin k (i + 1) _ (by omega) (h.setChain i) h6 h7) fun r hr => HT.pure ?_
      rw [hn, hr]

theorem expandSeed_ht (g : p.Good) (hk1 : skSeed.length = p.n) (hs : seed.length = p.n) {layer tree leaf : Nat}
    (hin : LeafIn p layer tree leaf) {a : Addr} (h : IsOts a layer tree leaf) :
    HT (TreeQ H p skSeed seed) (expandSeedT H p skSeed seed a) (fun r => r = expandSeed H p skSeed seed a) := by
  rw [expandSeedT]
  exact expandSeedLoop_ht g hk1 hs hin p.wots_len 0 _ (by omega) ((h.setHash 0).setKM 0) rfl rfl

theorem chainsLoop_ht (g : p.Good) (hH : ∀ x, (H x).length = p.n) (hs : seed.length = p.n) {layer tree leaf : Nat}
    (hin : LeafIn p layer tree leaf) : ∀ (cs : List (Bytes × Nat × Nat)) (i : Nat) (a : Addr), i + cs.length ≤ p.wots_len →
      IsOts a layer tree leaf →
      (∀ j < cs.length, cs[j]? = some ((suiteOf p H).wotsSk skSeed seed layer tree leaf (i + j), 0, (cs.getD j ([], 0, 0)).2.2) ∧
        (cs.getD j ([], 0, 0)).2.2 ≤ p.wots_w - 1) →
      HT (TreeQ H p skSeed seed) (chainsLoopT H p seed i cs a) (fun r => r = chainsLoop H p seed i cs a)
  | [], _, _, _, _, _ => HT.pure rfl
  | (x, start, steps) :: cs, i, a, hk, h, hc => by
    simp only [List.length_cons] at hk
    have h0 := hc 0 (by simp)
    simp only [List.getElem?_cons_zero, List.getD_cons_zero, Option.some.injEq, Prod.mk.injEq, and_true, Nat.add_zero] at h0
    obtain ⟨⟨hx, hst⟩, hle⟩ := h0
    subst hst
    rw [chainsLoopT, chainsLoop, genChainT]
    have hw := g.w_ge
    have hmin : min (0 + steps) p.wots_w - 0 = steps := by omega
    have hgen := genChain_eq (H := H) (p := p) (chain := i) seed 0 steps x a h (by omega)
    rw [hmin]
    have e : genChain H p x 0 steps seed (setChainAddr a i) = genChainLoop H p seed steps 0 x (setChainAddr a i) := by
      rw [genChain, hmin]
    rw [e] at hgen ⊢
    refine HT.bind (genChainLoop_ht g hH hs hin (c := i) (by omega) steps 0 x _ (by omega) (h.setChain i) rfl hx) fun r hr => ?_
    rw [hr]
    refine HT.bind (chainsLoop_ht g hH hs hin cs (i + 1) _ (by omega) hgen.2 (fun j hj => ?_)) fun r' hr' => HT.pure ?_
    · have := hc (j + 1) (by simpa using hj)
      simp only [List.getElem?_cons_succ, List.getD_cons_succ] at this
      rwa [show i + 1 + j = i + (j + 1) by omega]
    · rw [hr']

theorem wotsPkgen_ht (g : p.Good) (hH : ∀ x, (H x).length = p.n) (hk1 : skSeed.length = p.n) (hs : seed.length = p.n)
    {layer tree leaf : Nat} (hin : LeafIn p layer tree leaf) {a : Addr} (h : IsOts a layer tree leaf) :
    HT (TreeQ H p skSeed seed) (wotsPkgenT H p skSeed seed a) (fun r => r = wotsPkgen H p skSeed seed a) := by
  rw [wotsPkgenT, wotsPkgen]
  refine HT.bind (expandSeed_ht g hk1 hs hin h) fun r hr => ?_
  obtain ⟨e1, e2⟩ := expandSeed_eq (H := H) (p := p) skSeed seed a h
  rw [hr]
  refine chainsLoop_ht g hH hs hin _ 0 _ (by simp [e1]) e2 fun j hj => ?_
  rw [List.length_map, e1, List.length_map, List.length_range] at hj
  simp [e1, List.getElem?_range hj, List.getD_eq_getElem?_getD]

theorem wotsSign_ht (g : p.Good) (hH : ∀ x, (H x).length = p.n) (hk1 : skSeed.length = p.n) (hs : seed.length = p.n)
    {layer tree leaf : Nat} (hin : LeafIn p layer tree leaf) {msg : Bytes} (hm : msg.length = p.n) {a : Addr} (h : IsOts a layer tree leaf) :
    HT (TreeQ H p skSeed seed) (wotsSignT H p msg skSeed seed a) (fun r => r = wotsSign H p msg skSeed seed a) := by
  rw [wotsSignT, wotsSign]
  refine HT.bind (expandSeed_ht g hk1 hs hin h) fun r hr => ?_
  obtain ⟨e1, e2⟩ := expandSeed_eq (H := H) (p := p) skSeed seed a h
  rw [hr]
  have hlen := wotsDigits_length (suiteOf p H) msg
  rw [g.len_eq'] at hlen
  refine chainsLoop_ht g hH hs hin _ 0 _ (by simp [e1]) e2 fun j hj => ?_
  rw [List.length_zipWith, e1, List.length_map, List.length_range] at hj
  have hj1 : j < p.wots_len := by omega
  rw [chainLengths_eq g H hm] at hj ⊢
  have hj' : j < ((suiteOf p H).wotsDigits msg).length := by omega
  have hlt := wotsDigits_lt (suiteOf p H) g.w_pos msg (List.getElem_mem hj')
  have hw : (suiteOf p H).w = p.wots_w := rfl
  have hg : (List.zipWith (fun x l => (x, 0, l)) (expandSeed H p skSeed seed a).1 ((suiteOf p H).wotsDigits msg))[j]? =
      some ((suiteOf p H).wotsSk skSeed seed layer tree leaf j, 0, ((suiteOf p H).wotsDigits msg)[j]) := by
    simp [e1, List.getElem?_range hj1, List.getElem?_zipWith, List.getElem?_eq_getElem hj']
  rw [List.getD_eq_getElem?_getD, hg, Nat.zero_add]
  exact ⟨rfl, by show ((suiteOf p H).wotsDigits msg)[j] ≤ _; omega⟩

/-! ### xmss_commons.c and treehash -/

theorem row_len (g : p.Good) (hH : ∀ x, (H x).length = p.n) (layer tree leaf : Nat) : ∀ (height : Nat),
    ∀ j < (row (suiteOf p H) skSeed seed layer tree leaf height).length,
      ((row (suiteOf p H) skSeed seed layer tree leaf height).getD j []).length = p.n
  | 0, j, hj => by
    refine wotsPk_mem_len (suiteOf p H) hH skSeed seed layer tree leaf _ ?_
    rw [row] at hj ⊢
    rw [List.getD_eq_getElem?_getD, List.getElem?_eq_getElem hj]
    exact List.getElem_mem hj
  | height + 1, j, hj => by
    obtain ⟨s1, s2⟩ := ltreeRow_spec (fun i => (suiteOf p H).randHash seed (Rfc.Suite.ltreeAdrs layer tree leaf height i)) 0
      (row (suiteOf p H) skSeed seed layer tree leaf height)
    rw [row] at hj ⊢
    rw [s1] at hj
    rw [s2 j]
    split
    · exact hH _
    · exact row_len g hH layer tree leaf height _ (by omega)

theorem ltreeRow_ht (g : p.Good) (hH : ∀ x, (H x).length = p.n) (hs : seed.length = p.n) {layer tree leaf height : Nat}
    (hin : LeafIn p layer tree leaf) : ∀ (k i : Nat) (nodes : List Bytes) (a : Addr), IsLtree a layer tree leaf →
      a.a5 = UInt32.ofNat height → 2 * (i + k) ≤ (row (suiteOf p H) skSeed seed layer tree leaf height).length →
      (∀ j, 2 * i ≤ j → j < 2 * (i + k) → nodes.getD j [] = (row (suiteOf p H) skSeed seed layer tree leaf height).getD j []) →
      HT (TreeQ H p skSeed seed) (ltreeRowT H p seed k i nodes a) (fun r => r = ltreeRow H p seed k i nodes a) := by
  intro k
  induction k with
  | zero => intro _ _ _ _ _ _ _; exact HT.pure rfl
  | succ k ih =>
    intro i nodes a ha h5 hk hn
    rw [ltreeRowT, ltreeRow]
    have hp : (Spot.ltree layer tree leaf height i).In (suiteOf p H) skSeed seed := by
      refine ⟨hin.l, ?_, ?_, by omega⟩
      · rw [g.hp_eq]; exact hin.t
      · rw [g.hp_eq]; exact hin.i
    have hL := row_len (skSeed := skSeed) (seed := seed) g hH layer tree leaf height
    have ha' : IsLtree (setTreeIndex a i) layer tree leaf := ⟨ha.h0, ha.h1, ha.h2, ha.h3, ha.h4⟩
    have hkm : ∀ km, addrToBytes (setKeyAndMask (setTreeIndex a i) km) = (Spot.ltree layer tree leaf height i).adrs km :=
      fun km => IsLtree.bytes (a := setKeyAndMask (setTreeIndex a i) km) ⟨ha.h0, ha.h1, ha.h2, ha.h3, ha.h4⟩ h5 rfl rfl
    have e1 := hn (2 * i) (by omega) (by omega)
    have e2 := hn (2 * i + 1) (by omega) (by omega)
    have hv : (Spot.ltree layer tree leaf height i).values (suiteOf p H) skSeed seed =
        [nodes.getD (2 * i) [], nodes.getD (2 * i + 1) []] := by rw [Spot.values, e1, e2]
    have l1 : (nodes.getD (2 * i) []).length = p.n := by rw [e1]; exact hL _ (by omega)
    have l2 : (nodes.getD (2 * i + 1) []).length = p.n := by rw [e2]; exact hL _ (by omega)
    refine HT.bind (thashH_ht hH hs hkm rfl rfl hp hv l1 l2) fun r hr => ?_
    rw [hr]
    have hadr := thashH_addr (H := H) (p := p) (nodes.getD (2 * i) [] ++ nodes.getD (2 * i + 1) []) seed (setTreeIndex a i)
    refine ih (i + 1) _ _ ?_ ?_ (by omega) ?_
    · rw [hadr]; exact ⟨ha.h0, ha.h1, ha.h2, ha.h3, ha.h4⟩
    · rw [hadr]; exact h5
    · intro j h1 h2
      rw [getD_set, if_neg (by omega)]
      exact hn j (by omega) (by omega)

/-- One round of `l_tree` in place (as in `ltreeLoop_eq`). -/
theorem ltree_round (hH : ∀ x, (H x).length = p.n) {layer tree lt : Nat} (pubSeed : Bytes) (l height : Nat)
    (nodes : List Bytes) (a : Addr) (ha : IsLtree a layer tree lt) (h5 : a.a5 = UInt32.ofNat height)
    (hl : ¬ l ≤ 1) (hlen : l ≤ nodes.length) (hn : ∀ j < nodes.length, (nodes.getD j []).length = p.n) :
    let R := ltreeRow H p pubSeed (l >>> 1) 0 nodes a
    let s : List Bytes × Nat := if l &&& 1 = 1 then (R.1.set (l >>> 1) (R.1.getD (l - 1) []), (l >>> 1) + 1) else (R.1, l >>> 1)
    s.1.take s.2 = Rfc.Suite.ltreeRow (fun j => (suiteOf p H).randHash pubSeed (Rfc.Suite.ltreeAdrs layer tree lt height j)) 0
      (nodes.take l) ∧ 1 ≤ s.2 ∧ s.2 ≤ s.1.length ∧ (∀ j < s.1.length, (s.1.getD j []).length = p.n) ∧ IsLtree R.2 layer tree lt := by
  have htl : (nodes.take l).length = l := by simp; omega
  have hsh : l >>> 1 = l / 2 := by simp [Nat.shiftRight_eq_div_pow]
  have hand : l &&& 1 = l % 2 := Nat.and_one_is_mod l
  rw [hsh, hand]
  obtain ⟨r1, r2, r3, r4⟩ := ltreeRow_eq hH pubSeed (l / 2) 0 nodes a ha h5 (by omega) hn
  obtain ⟨s1, s2⟩ := ltreeRow_spec
    (fun j => (suiteOf p H).randHash pubSeed (Rfc.Suite.ltreeAdrs layer tree lt height j)) 0 (nodes.take l)
  rw [htl] at s1
  intro R
  by_cases hodd : l % 2 = 1
  · simp only [if_pos hodd]
    refine ⟨?_, by omega, by rw [List.length_set, r1]; omega, ?_, r3⟩
    · apply ext_getD
      · simp only [List.length_take, List.length_set, r1, s1, R]; omega
      · intro j hj
        have hj : j < l / 2 + 1 := by simp at hj; omega
        rw [getD_take _ _ _ hj, getD_set, s2 j, htl, r1]
        by_cases hjl : l / 2 = j
        · rw [if_pos ⟨hjl, by omega⟩, if_neg (by omega), r2, if_neg (by omega), getD_take _ _ _ (by omega)]
          congr 1; omega
        · rw [if_neg (by tauto), if_pos (by omega), r2 j, if_pos (by omega), getD_take _ _ _ (by omega),
            getD_take _ _ _ (by omega), Nat.zero_add]
    · intro j hj
      rw [List.length_set, r1] at hj
      rw [getD_set]
      split
      · exact r4 _ (by omega)
      · exact r4 _ hj
  · simp only [if_neg hodd]
    refine ⟨?_, by omega, by rw [r1]; omega, ?_, r3⟩
    · apply ext_getD
      · simp only [List.length_take, r1, s1, R]; omega
      · intro j hj
        have hj : j < l / 2 := by simp at hj; omega
        rw [getD_take _ _ _ hj, s2 j, htl, if_pos (by omega), r2 j, if_pos (by omega), getD_take _ _ _ (by omega),
            getD_take _ _ _ (by omega), Nat.zero_add]
    · intro j hj
      rw [r1] at hj
      exact r4 j hj

theorem ltreeLoop_ht (g : p.Good) (hH : ∀ x, (H x).length = p.n) (hs : seed.length = p.n) {layer tree leaf : Nat}
    (hin : LeafIn p layer tree leaf) : ∀ (fuel l height : Nat) (nodes : List Bytes) (a : Addr), IsLtree a layer tree leaf →
      a.a5 = UInt32.ofNat height → l ≤ nodes.length → (∀ j < nodes.length, (nodes.getD j []).length = p.n) →
      nodes.take l = row (suiteOf p H) skSeed seed layer tree leaf height →
      HT (TreeQ H p skSeed seed) (ltreeLoopT H p seed fuel l height nodes a) (fun r => r = ltreeLoop H p seed fuel l height nodes a)
  | 0, _, _, _, _, _, _, _, _, _ => HT.pure rfl
  | fuel + 1, l, height, nodes, a, ha, h5, hlen, hn, hrow => by
    rw [ltreeLoopT, ltreeLoop]
    refine HT.ite (fun h => ?_) (fun h => ?_)
    · rw [if_pos h]; exact HT.pure rfl
    · rw [if_neg h]
      have htl : (nodes.take l).length = l := by simp; omega
      have hsh : l >>> 1 = l / 2 := by simp [Nat.shiftRight_eq_div_pow]
      refine HT.bind (ltreeRow_ht g hH hs hin _ 0 nodes a ha h5 (by rw [← hrow, htl, hsh]; omega) ?_) fun r hr => ?_
      · intro j _ h2
        rw [← hrow, getD_take _ _ _ (by rw [hsh] at h2; omega)]
      · rw [hr]
        obtain ⟨t1, t2, t3, t4, t5⟩ := ltree_round hH seed l height nodes a ha h5 h hlen hn
        refine ltreeLoop_ht g hH hs hin fuel _ _ _ _ ?_ rfl t3 t4 ?_
        · exact ⟨t5.h0, t5.h1, t5.h2, t5.h3, t5.h4⟩
        · rw [t1, hrow]; rfl

theorem lTree_ht (g : p.Good) (hH : ∀ x, (H x).length = p.n) (hs : seed.length = p.n) {layer tree leaf : Nat}
    (hin : LeafIn p layer tree leaf) {a : Addr} (ha : IsLtree a layer tree leaf) :
    HT (TreeQ H p skSeed seed) (lTreeT H p ((suiteOf p H).wotsPk skSeed seed layer tree leaf) seed a)
      (fun r => r = lTree H p ((suiteOf p H).wotsPk skSeed seed layer tree leaf) seed a) := by
  rw [lTreeT, lTree]
  have hlen := wotsPk_len (suiteOf p H) skSeed seed layer tree leaf
  rw [g.len_eq'] at hlen
  refine HT.bind (ltreeLoop_ht g hH hs hin _ _ 0 _ _ ⟨ha.h0, ha.h1, ha.h2, ha.h3, ha.h4⟩ rfl (by omega)
    (row_len (skSeed := skSeed) (seed := seed) g hH layer tree leaf 0) ?_) fun r hr => HT.pure ?_
  · rw [List.take_of_length_le (by omega)]; rfl
  · rw [hr]

theorem genLeafWots_ht (g : p.Good) (hH : ∀ x, (H x).length = p.n) (hk1 : skSeed.length = p.n) (hs : seed.length = p.n)
    {layer tree leaf : Nat} (hin : LeafIn p layer tree leaf) {lt ots : Addr} (hlt : IsLtree lt layer tree leaf)
    (hots : IsOts ots layer tree leaf) :
    HT (TreeQ H p skSeed seed) (genLeafWotsT H p skSeed seed lt ots) (fun r => r = genLeafWots H p skSeed seed lt ots) := by
  rw [genLeafWotsT, genLeafWots]
  refine HT.bind (wotsPkgen_ht g hH hk1 hs hin hots) fun r hr => ?_
  have h1 := wotsPkgen_eq (H := H) g skSeed seed ots hots
  rw [hr, h1.1]
  refine HT.bind (lTree_ht g hH hs hin hlt) fun r' hr' => HT.pure ?_
  rw [hr']

theorem treehashMerge_ht (g : p.Good) (hH : ∀ x, (H x).length = p.n) (hs : seed.length = p.n) {layer tree : Nat} (hl : layer < p.d)
    (ht : tree < 2 ^ (p.full_height - (layer + 1) * p.tree_height)) {leafIdx idx : Nat} (hidx : idx < 2 ^ p.tree_height)
    {N : Nat → Nat → Bytes} (hN : N = (suiteOf p H).node skSeed seed layer tree) :
    ∀ (s : List (Bytes × Nat)) (j m : Nat) (auth : List Bytes) (a : Addr), IsStk N j m s → idx + 1 = 2 ^ j * (m + 1) →
      IsTree a layer tree →
      HT (TreeQ H p skSeed seed) (treehashMergeT H p seed leafIdx idx (N j m) j s auth a)
        (fun r => IsStk N j (m + 1) r.1 ∧ IsTree r.2.2 layer tree)
  | [], j, m, auth, a, hstk, hm, ha => by
    rcases Nat.even_or_odd' m with ⟨q, rfl | rfl⟩
    · exact HT.pure ⟨IsStk.odd hstk.inv_even, ha⟩
    · obtain ⟨s', h, _⟩ := hstk.inv_odd; simp at h
  | (x2, h2) :: rest, j, m, auth, a, hstk, hm, ha => by
    rw [treehashMergeT]
    rcases Nat.even_or_odd' m with ⟨q, rfl | rfl⟩
    · have := hstk.inv_even.heights (x2, h2) (by simp)
      have hne : ¬ j = h2 := by simp only at this; omega
      rw [if_neg hne]
      exact HT.pure ⟨IsStk.odd hstk.inv_even, ha⟩
    · obtain ⟨s', h, hs'⟩ := hstk.inv_odd
      simp only [List.cons.injEq, Prod.mk.injEq] at h
      obtain ⟨⟨rfl, rfl⟩, rfl⟩ := h
      have hm' : idx + 1 = 2 ^ (h2 + 1) * (q + 1) := by rw [hm, pow_succ]; ring
      have hdiv := div_of_succ_eq hm'
      have hsh : idx >>> (h2 + 1) = q := by rw [Nat.shiftRight_eq_div_pow, hdiv]
      have hle : 2 ^ (h2 + 1) * (q + 1) ≤ 2 ^ p.tree_height := by omega
      have hh : h2 < p.tree_height := by
        by_contra hc
        have h3 : 2 ^ p.tree_height ≤ 2 ^ h2 := Nat.pow_le_pow_right (by omega) (by omega)
        have h4 : 2 ^ (h2 + 1) ≤ 2 ^ (h2 + 1) * (q + 1) := Nat.le_mul_of_pos_right _ (by omega)
        have h5 : 2 ^ (h2 + 1) = 2 * 2 ^ h2 := by rw [pow_succ]; ring
        have := Nat.two_pow_pos h2
        omega
      have hq : q < 2 ^ (p.tree_height - 1 - h2) := by
        have h3 : 2 ^ p.tree_height = 2 ^ (h2 + 1) * 2 ^ (p.tree_height - 1 - h2) := by rw [← pow_add]; congr 1; omega
        rw [h3] at hle
        have := Nat.le_of_mul_le_mul_left hle (Nat.two_pow_pos _)
        omega
      rw [if_pos rfl, hsh]
      have hp : (Spot.node layer tree h2 q).In (suiteOf p H) skSeed seed := by
        refine ⟨hl, ?_, ?_, ?_⟩ <;> rw [g.hp_eq] <;> assumption
      refine HT.bind (thashH_node (a := setTreeIndex (setTreeHeight a h2) q) g hH hs ⟨ha.h0, ha.h1, ha.h2, ha.h3, ha.h4⟩ rfl rfl hp
        (by rw [hN]) (by rw [hN])) fun r hr => ?_
      refine HT.optBind fun auth' _ => ?_
      have hval := thashH_tree (H := H) (p := p) (a := setTreeIndex (setTreeHeight a h2) q) (height := h2) (index := q)
        ⟨ha.h0, ha.h1, ha.h2, ha.h3, ha.h4⟩ rfl rfl hH (l := N h2 (2 * q)) (r := N h2 (2 * q + 1))
        (by rw [hN]; exact node_length g hH _ _ _ _ _ _) seed
      have hadr := thashH_addr (H := H) (p := p) (N h2 (2 * q) ++ N h2 (2 * q + 1)) seed
        (setTreeIndex (setTreeHeight a h2) q)
      have hnode : (suiteOf p H).randHash seed (Rfc.Suite.treeAdrs layer tree h2 q) (N h2 (2 * q)) (N h2 (2 * q + 1)) =
          N (h2 + 1) q := by rw [hN]; rfl
      rw [hr, hval, hnode, hadr]
      refine HT.mono (treehashMerge_ht g hH hs hl ht hidx hN rest (h2 + 1) q auth' _ hs' hm' ⟨ha.h0, ha.h1, ha.h2, ha.h3, ha.h4⟩)
        fun a' h' => ⟨?_, h'.2⟩
      have : 2 * q + 1 + 1 = 2 * (q + 1) := by ring
      rw [this]
      exact IsStk.even h'.1

theorem treehashLoop_ht (g : p.Good) (hH : ∀ x, (H x).length = p.n) (hk1 : skSeed.length = p.n) (hs : seed.length = p.n)
    {layer tree : Nat} (hl : layer < p.d) (ht : tree < 2 ^ (p.full_height - (layer + 1) * p.tree_height)) {leafIdx : Nat}
    {N : Nat → Nat → Bytes} (hN : N = (suiteOf p H).node skSeed seed layer tree) :
    ∀ (k idx : Nat) (s : List (Bytes × Nat)) (auth : List Bytes) (ots lt nd : Addr) (o1 o2 : Nat),
      idx + k = 2 ^ p.tree_height → IsStk N 0 idx s → IsOts ots layer tree o1 → IsLtree lt layer tree o2 →
      IsTree nd layer tree →
      HT (TreeQ H p skSeed seed) (treehashLoopT H p skSeed seed leafIdx k idx s auth ots lt nd) (fun _ => True)
  | 0, _, _, _, _, _, _, _, _, _, _, _, _, _ => HT.pure trivial
  | k + 1, idx, s, auth, ots, lt, nd, o1, o2, hk, hstk, hots, hlt, hnd => by
    rw [treehashLoopT]
    have hidx : idx < 2 ^ p.tree_height := by omega
    have hlt' : IsLtree (setLtreeAddr lt idx) layer tree idx := ⟨hlt.h0, hlt.h1, hlt.h2, hlt.h3, rfl⟩
    have hots' : IsOts (setOtsAddr ots idx) layer tree idx := ⟨hots.h0, hots.h1, hots.h2, hots.h3, rfl⟩
    obtain ⟨l1, _, l3, l4⟩ := genLeafWots_eq g hH (layer := layer) (tree := tree) (i := idx) skSeed seed _ _ hlt' hots'
    have hleaf : (suiteOf p H).leaf skSeed seed layer tree idx = N 0 idx := by rw [hN]; rfl
    rw [hleaf] at l1
    refine HT.bind (genLeafWots_ht g hH hk1 hs ⟨hl, ht, hidx⟩ hlt' hots') fun r hr => ?_
    rw [hr]
    refine HT.ite (fun _ => HT.none) fun _ => HT.optBind fun auth' _ => ?_
    rw [l1]
    refine HT.bind (treehashMerge_ht g hH hs hl ht hidx hN s 0 idx auth' nd hstk (by simp) hnd) fun r' hr' => ?_
    exact treehashLoop_ht g hH hk1 hs hl ht hN k (idx + 1) _ _ _ _ _ idx idx (by omega) hr'.1 l4 l3 hr'.2

theorem treehash_ht (g : p.Good) (hH : ∀ x, (H x).length = p.n) (hk1 : skSeed.length = p.n) (hs : seed.length = p.n)
    {layer tree : Nat} (hl : layer < p.d) (ht : tree < 2 ^ (p.full_height - (layer + 1) * p.tree_height)) {leafIdx : Nat}
    {sub : Addr} (hsub : sub.a0 = UInt32.ofNat layer ∧ sub.a1 = UInt32.ofNat (tree >>> 32) ∧ sub.a2 = UInt32.ofNat tree) {auth0 : List Bytes} :
    HT (TreeQ H p skSeed seed) (treehashT H p skSeed seed leafIdx sub auth0) (fun _ => True) := by
  rw [treehashT]
  obtain ⟨h0, h1, h2⟩ := hsub
  refine HT.bind (treehashLoop_ht g hH hk1 hs hl ht rfl (2 ^ p.tree_height) 0 [] auth0 _ _ _ 0 0 (by omega) (IsStk.nil _)
    ⟨h0, h1, h2, rfl, rfl⟩ ⟨h0, h1, h2, rfl, rfl⟩ ⟨h0, h1, h2, rfl, rfl⟩) fun r _ => ?_
  split
  · exact HT.none
  · exact HT.pure trivial

end TI
end Xmss
