import Verif.Props.StrongForgery
import Verif.Props.MixedBuilds
/-
C81 and C82: what an adversary who also makes the public key cannot do.  Nothing here assumes that the public key was
generated by key generation: root and public seed are arbitrary strings of n bytes.
-/
namespace Xmss

variable {P : Prims} {f : Family} {oid : Nat} {p : Params} {H : Bytes → Bytes}

/-! ### C81: one signature stands for one message -/

/-- On layer `i` the two verifications of the same signature body, for the digests `M` and `M'`, climb the same
authentication path from different children to the same parent: an explicit collision of the tree hash. -/
def TwoPathCollision (S : Rfc.Suite) (seed : Bytes) (idx : Nat) (body M M' : Bytes) (i : Nat) : Prop :=
  ∃ h < S.hp, TreeCollision S seed
    (Rfc.Suite.treeAdrs i (treeOn S idx i) h (leafOn S idx i / 2 ^ (h + 1)))
    (children (leafOn S idx i) h
      (pathNode S seed i (treeOn S idx i) (leafOn S idx i) (recvLeaf S seed idx body M i) (recvAuth S body i) h)
      ((recvAuth S body i).getD h []))
    (children (leafOn S idx i) h
      (pathNode S seed i (treeOn S idx i) (leafOn S idx i) (recvLeaf S seed idx body M' i) (recvAuth S body i) h)
      ((recvAuth S body i).getD h []))

/-- On layer `i` the two verifications compute different WOTS public keys, and in their L-trees two different pairs of
nodes at the same place have the same parent. -/
def TwoLtreeCollision (S : Rfc.Suite) (seed : Bytes) (idx : Nat) (body M M' : Bytes) (i : Nat) : Prop :=
  let row := fun M => ltreeRowAt S seed i (treeOn S idx i) (leafOn S idx i) (recvPk S seed idx body M i)
  ∃ h j, TreeCollision S seed (Rfc.Suite.ltreeAdrs i (treeOn S idx i) (leafOn S idx i) h j)
    ((row M h).getD (2 * j) [], (row M h).getD (2 * j + 1) []) ((row M' h).getD (2 * j) [], (row M' h).getD (2 * j + 1) [])

/-- The same value `x` of chain `j` was taken to be at position `lo` by one verification and at position `hi` by the
other, and both reach the same end of the chain.  Then hashing `x` from `lo` to `hi` gives `x` again, or two different
values at some position from `hi` on have the same successor. -/
def ChainLoop (S : Rfc.Suite) (seed : Bytes) (adrs : Nat → Nat → Bytes) (x : Bytes) (lo hi : Nat) : Prop :=
  let y := S.chain seed adrs x lo (hi - lo)
  y = x ∨ ∃ s, hi + s < S.w - 1 ∧ S.chain seed adrs y hi s ≠ S.chain seed adrs x hi s ∧
    S.chainStep seed adrs (hi + s) (S.chain seed adrs y hi s) = S.chainStep seed adrs (hi + s) (S.chain seed adrs x hi s)

/-- On layer `i` the same WOTS signature is used for two different values: on every chain whose digits differ there is a
`ChainLoop`, and digits do differ, in both directions. -/
def TwoMessagesOneWots (S : Rfc.Suite) (seed : Bytes) (idx : Nat) (body M M' : Bytes) (i : Nat) : Prop :=
  let a := fun j => (S.wotsDigits (recvMsg S seed idx body M i)).getD j 0
  let b := fun j => (S.wotsDigits (recvMsg S seed idx body M' i)).getD j 0
  (∃ j < S.len, a j < b j) ∧ (∃ j < S.len, b j < a j) ∧
    ∀ j < S.len, a j ≠ b j → ChainLoop S seed (Rfc.Suite.otsAdrs i (treeOn S idx i) (leafOn S idx i) j)
      ((recvSig S body i).getD j []) (min (a j) (b j)) (max (a j) (b j))

/-- Two chains from the same value at different positions with the same end. -/
theorem chain_loop (S : Rfc.Suite) (seed : Bytes) (adrs : Nat → Nat → Bytes) (x : Bytes) (lo hi : Nat) (hlt : lo < hi)
    (hw : hi < S.w) (h : S.chain seed adrs x lo (S.w - 1 - lo) = S.chain seed adrs x hi (S.w - 1 - hi)) :
    ChainLoop S seed adrs x lo hi := by
  unfold ChainLoop
  intro y
  have e := chain_add S seed adrs x lo (hi - lo) (S.w - 1 - hi)
  rw [show lo + (hi - lo) = hi by omega, show hi - lo + (S.w - 1 - hi) = S.w - 1 - lo by omega, h] at e
  rcases chain_merge S seed adrs hi _ _ _ e.symm with h | ⟨s, hs, h1, h2⟩
  · exact Or.inl h
  · exact Or.inr ⟨s, by omega, h1, h2⟩

/-- One layer: if both verifications leave it with the same value, they entered it with the same value, or there is a
break on this layer. -/
theorem two_layer (g : p.Good) (hHl : ∀ x, (H x).length = p.n) (seed : Bytes) (idx : Nat) (body M M' : Bytes)
    (hM : M.length = p.n) (hM' : M'.length = p.n) (i : Nat)
    (h : recvMsg (suiteOf p H) seed idx body M (i + 1) = recvMsg (suiteOf p H) seed idx body M' (i + 1)) :
    TwoPathCollision (suiteOf p H) seed idx body M M' i ∨ TwoLtreeCollision (suiteOf p H) seed idx body M M' i ∨
      TwoMessagesOneWots (suiteOf p H) seed idx body M M' i ∨
      recvMsg (suiteOf p H) seed idx body M i = recvMsg (suiteOf p H) seed idx body M' i := by
  set S := suiteOf p H with hS
  have hlen : 0 < S.len := by rw [show S.len = p.wots_len from g.len_eq' H]; exact g.len_pos
  have la : (recvAuth S body i).length = S.hp := by simp [recvAuth, Rfc.blocks]
  have hc := climb_collision S seed i (treeOn S idx i) (leafOn S idx i) (recvLeaf S seed idx body M i)
    (recvLeaf S seed idx body M' i) (recvAuth S body i) (recvAuth S body i) rfl S.hp la.ge (by
      rw [pathNode, pathNode, List.take_of_length_le la.le]
      exact h)
  rcases hc with hc | hc
  · have hlt := ltree_collision S seed i (treeOn S idx i) (leafOn S idx i) (recvPk S seed idx body M i)
      (recvPk S seed idx body M' i) (by simp [recvPk, Rfc.Suite.wotsPkFromSig])
      (by simpa [recvPk, Rfc.Suite.wotsPkFromSig] using hlen) hc
    rcases hlt with hlt | ⟨a, b, hlt⟩
    · refine Or.inr (Or.inr ?_)
      by_cases he : recvMsg S seed idx body M i = recvMsg S seed idx body M' i
      · exact Or.inr he
      · left
        have l1 := recvMsg_length g hHl seed idx body M hM i
        have l2 := recvMsg_length g hHl seed idx body M' hM' i
        obtain ⟨j, hj, h1⟩ := C07_checksum_partial p g _ _ l2 l1 (Ne.symm he)
        obtain ⟨j', hj', h2⟩ := C07_checksum_partial p g _ _ l1 l2 he
        rw [chainLengths_eq g H l1, chainLengths_eq g H l2] at h1 h2
        have hL : S.len = p.wots_len := g.len_eq' H
        refine ⟨⟨j, by omega, h1⟩, ⟨j', by omega, h2⟩, ?_⟩
        intro j hj hne
        have hpk := congrArg (fun l => l.getD j []) hlt
        simp only [recvPk] at hpk
        rw [wotsPkFromSig_getD _ _ _ _ _ _ _ _ hj, wotsPkFromSig_getD _ _ _ _ _ _ _ _ hj] at hpk
        have b1 := wotsDigits_getD_lt S g.w_pos (recvMsg S seed idx body M i) j
        have b2 := wotsDigits_getD_lt S g.w_pos (recvMsg S seed idx body M' i) j
        rcases Nat.lt_or_gt_of_ne hne with hl | hl
        · rw [min_eq_left hl.le, max_eq_right hl.le]
          exact chain_loop S seed _ _ _ _ hl b2 hpk
        · rw [min_eq_right hl.le, max_eq_left hl.le]
          exact chain_loop S seed _ _ _ _ hl b1 hpk.symm
    · exact Or.inr (Or.inl ⟨a, b, hlt⟩)
  · exact Or.inl hc

/-- What is found when one signature is accepted for two messages: a break on some layer, or a collision of H_msg between
the two messages (same R, same root, same index). -/
def TwoMessagesBreak (p : Params) (H : Bytes → Bytes) (root seed sig msg msg' : Bytes) : Prop :=
  let S := suiteOf p H
  let idx := Rfc.toNat (sig.take p.index_bytes)
  let R := (sig.drop p.index_bytes).take p.n
  let body := sig.drop (p.index_bytes + p.n)
  let M := S.digest R root idx msg
  let M' := S.digest R root idx msg'
  (digestString S R root idx msg ≠ digestString S R root idx msg' ∧
      H (digestString S R root idx msg) = H (digestString S R root idx msg')) ∨
    ∃ i < p.d, TwoPathCollision S seed idx body M M' i ∨ TwoLtreeCollision S seed idx body M M' i ∨
      TwoMessagesOneWots S seed idx body M M' i

/-- The root that acceptance compares with. -/
theorem accepted_top (hp : f.parse oid = some p) (hH : coreHash P p.func p.n = some H) (k : Key)
    (hkr : k.root.length = p.n) (hks : k.pubSeed.length = p.n) (sig msg m : Bytes) (l0 : Nat) (hs : sig.length = p.sig_bytes)
    (h64 : p.sig_bytes + msg.length < 2 ^ 64) (hm : p.sig_bytes + msg.length ≤ m.length) (r : OpenOut)
    (hr : f.signOpen P m l0 (sig ++ msg) (p.sig_bytes + msg.length) (k.pk oid) = some r) (hacc : r.ret = 0) :
    recvMsg (suiteOf p H) k.pubSeed (Rfc.toNat (sig.take p.index_bytes)) (sig.drop (p.index_bytes + p.n))
      ((suiteOf p H).digest ((sig.drop p.index_bytes).take p.n) k.root (Rfc.toNat (sig.take p.index_bytes)) msg) p.d =
        k.root := by
  obtain ⟨r', h1, _, h3⟩ := C23_open_is_rfc hp hH k hkr hks sig msg m l0 hs h64 hm
  rw [hr] at h1
  cases h1
  have hver := h3.mp hacc
  have h := verifyLayers_recv (suiteOf p H) k.pubSeed (Rfc.toNat (sig.take p.index_bytes)) (sig.drop (p.index_bytes + p.n))
    ((suiteOf p H).digest ((sig.drop p.index_bytes).take p.n) k.root (Rfc.toNat (sig.take p.index_bytes)) msg) p.d 0
  simp only [Nat.mul_zero, pow_zero, Nat.div_one, Nat.zero_mul, List.drop_zero, Nat.zero_add] at h
  rw [← h]
  exact hver

/-- **C81.**  One signature stands for one message, even if the public key is malicious.  For every parameter set and
every hash function of the right length, every public key whatever (the OID, then any `root` and any `seed`), every
signature and two different messages: if open accepts both messages with this signature, then the accepted bytes contain
an explicit break of the hash function (`TwoMessagesBreak`). -/
theorem C81_one_message (hp : f.parse oid = some p) (hH : coreHash P p.func p.n = some H) (root seed : Bytes)
    (hkr : root.length = p.n) (hks : seed.length = p.n) (sig msg msg' m m' : Bytes) (l0 l0' : Nat)
    (hs : sig.length = p.sig_bytes) (h64 : p.sig_bytes + msg.length < 2 ^ 64) (h64' : p.sig_bytes + msg'.length < 2 ^ 64)
    (hm : p.sig_bytes + msg.length ≤ m.length) (hm' : p.sig_bytes + msg'.length ≤ m'.length) (r r' : OpenOut)
    (hr : f.signOpen P m l0 (sig ++ msg) (p.sig_bytes + msg.length) (Rfc.toByte oid 4 ++ root ++ seed) = some r)
    (hr' : f.signOpen P m' l0' (sig ++ msg') (p.sig_bytes + msg'.length) (Rfc.toByte oid 4 ++ root ++ seed) = some r')
    (hacc : r.ret = 0) (hacc' : r'.ret = 0) (hne : msg ≠ msg') :
    TwoMessagesBreak p H root seed sig msg msg' := by
  obtain ⟨g, hskb, ho, _⟩ := Family.facts (P := P) hp
  have hHl := Family.hash_length hp hH
  set k : Key := ⟨[], [], root, seed⟩ with hk
  have t := accepted_top hp hH k hkr hks sig msg m l0 hs h64 hm r hr hacc
  have t' := accepted_top hp hH k hkr hks sig msg' m' l0' hs h64' hm' r' hr' hacc'
  unfold TwoMessagesBreak
  intro S idx R body M M'
  have down : ∀ j ≤ p.d, (∃ i < p.d, TwoPathCollision S seed idx body M M' i ∨ TwoLtreeCollision S seed idx body M M' i ∨
      TwoMessagesOneWots S seed idx body M M' i) ∨
      recvMsg S seed idx body M (p.d - j) = recvMsg S seed idx body M' (p.d - j) := by
    intro j
    induction j with
    | zero => intro _; exact Or.inr (t.trans t'.symm)
    | succ j ih =>
      intro hj
      rcases ih (by omega) with h | h
      · exact Or.inl h
      · rw [show p.d - j = p.d - (j + 1) + 1 by omega] at h
        rcases two_layer g hHl seed idx body M M' (hHl _) (hHl _) _ h with h | h | h | h
        · exact Or.inl ⟨_, by omega, Or.inl h⟩
        · exact Or.inl ⟨_, by omega, Or.inr (Or.inl h)⟩
        · exact Or.inl ⟨_, by omega, Or.inr (Or.inr h)⟩
        · exact Or.inr h
  rcases down p.d (Nat.le_refl _) with h | h
  · exact Or.inr h
  · left
    rw [Nat.sub_self] at h
    exact ⟨fun he => hne (List.append_cancel_left he), h⟩

/-- **C81, fast build.**  The same for the open functions of the fast library. -/
theorem C81_fast (hp : f.parse oid = some p) (hH : coreHash P p.func p.n = some H) (root seed : Bytes)
    (hkr : root.length = p.n) (hks : seed.length = p.n) (sig msg msg' m m' : Bytes) (l0 l0' : Nat)
    (hs : sig.length = p.sig_bytes) (h64 : p.sig_bytes + msg.length < 2 ^ 64) (h64' : p.sig_bytes + msg'.length < 2 ^ 64)
    (hm : p.sig_bytes + msg.length ≤ m.length) (hm' : p.sig_bytes + msg'.length ≤ m'.length) (r r' : OpenOut)
    (hr : f.signOpenFast P m l0 (sig ++ msg) (p.sig_bytes + msg.length) (Rfc.toByte oid 4 ++ root ++ seed) = some r)
    (hr' : f.signOpenFast P m' l0' (sig ++ msg') (p.sig_bytes + msg'.length) (Rfc.toByte oid 4 ++ root ++ seed) = some r')
    (hacc : r.ret = 0) (hacc' : r'.ret = 0) (hne : msg ≠ msg') :
    TwoMessagesBreak p H root seed sig msg msg' := by
  rw [C49_open_is_the_same] at hr hr'
  exact C81_one_message hp hH root seed hkr hks sig msg msg' m m' l0 l0' hs h64 h64' hm hm' r r' hr hr' hacc hacc' hne

/-- With a worthless hash function and the root it computes, XMSS-SHA2_10_256 accepts every signature for every message. -/
theorem worthless_accepts (seed : Bytes) (hks : seed.length = 32) (sig msg m : Bytes) (l0 : Nat) (hs : sig.length = 2500)
    (h64 : 2500 + msg.length < 2 ^ 64) (hm : 2500 + msg.length ≤ m.length) :
    ∃ r, Family.xmss.signOpen constPrims m l0 (sig ++ msg) (2500 + msg.length)
      (Rfc.toByte 1 4 ++ List.replicate 32 0 ++ seed) = some r ∧ r.ret = 0 := by
  have hp : Family.xmss.parse 1 = some Toy.p := rfl
  have hH : coreHash constPrims Toy.p.func Toy.p.n = some constPrims.sha256 := rfl
  have hsb : Toy.p.sig_bytes = 2500 := by decide
  set k : Key := ⟨[], [], List.replicate 32 0, seed⟩ with hk
  obtain ⟨r, h1, _, h3⟩ := C23_open_is_rfc (P := constPrims) hp hH k (by simp [k]; rfl) hks sig msg m l0 (hs.trans hsb.symm)
    (by rw [hsb]; exact h64) (by rw [hsb]; exact hm)
  rw [hsb] at h1
  refine ⟨r, h1, h3.mpr ?_⟩
  rw [Rfc.Suite.verify, Rfc.Suite.verifyRoot]
  show Rfc.Suite.verifyLayers _ _ 1 0 _ _ _ = _
  rw [Rfc.Suite.verifyLayers, Rfc.Suite.verifyLayers, Rfc.Suite.rootFromSig]
  apply climb_const
  · intro x; rfl
  · simp only [Rfc.blocks]
    rw [show (suiteOf Toy.p constPrims.sha256).hp = 9 + 1 from by decide]
    simp

/-- The hypotheses of C81 are met: for a worthless hash function by every signature and every two messages. -/
theorem C81_met (seed : Bytes) (hks : seed.length = 32) (sig : Bytes) (hs : sig.length = 2500) (msg msg' : Bytes)
    (h64 : 2500 + msg.length < 2 ^ 64) (h64' : 2500 + msg'.length < 2 ^ 64) (hne : msg ≠ msg') :
    TwoMessagesBreak Toy.p constPrims.sha256 (List.replicate 32 0) seed sig msg msg' := by
  have hsb : Toy.p.sig_bytes = 2500 := by decide
  obtain ⟨r, h1, h2⟩ := worthless_accepts seed hks sig msg (List.replicate (2500 + msg.length) 0) 0 hs h64 (by simp)
  obtain ⟨r', h1', h2'⟩ := worthless_accepts seed hks sig msg' (List.replicate (2500 + msg'.length) 0) 0 hs h64' (by simp)
  refine C81_one_message (P := constPrims) (f := .xmss) (oid := 1) (p := Toy.p) (H := constPrims.sha256) rfl rfl
    (List.replicate 32 0) seed (List.length_replicate ..) hks sig msg
    msg' (List.replicate (2500 + msg.length) 0) (List.replicate (2500 + msg'.length) 0) 0 0 (hs.trans hsb.symm) ?_ ?_ ?_ ?_ r r' ?_ ?_
    h2 h2' hne
  · rw [hsb]; exact h64
  · rw [hsb]; exact h64'
  · rw [hsb, List.length_replicate]
  · rw [hsb, List.length_replicate]
  · rw [hsb]; exact h1
  · rw [hsb]; exact h1'

/-! ### C82: a root belongs to one public key -/

/-- The string hashed for the top node when `sig` and `msg` are verified under `root`, `seed`: both children, masked, with
the key for this node, all derived from `seed`. -/
def topString (p : Params) (H : Bytes → Bytes) (root seed sig msg : Bytes) : Bytes :=
  let S := suiteOf p H
  let idx := Rfc.toNat (sig.take p.index_bytes)
  let body := sig.drop (p.index_bytes + p.n)
  let M := S.digest ((sig.drop p.index_bytes).take p.n) root idx msg
  let i := p.d - 1
  let top := p.tree_height - 1
  let leaf := leafOn S idx i
  let adrs := Rfc.Suite.treeAdrs i (treeOn S idx i) top 0
  let c := children leaf top
    (pathNode S seed i (treeOn S idx i) leaf (recvLeaf S seed idx body M i) (recvAuth S body i) top)
    ((recvAuth S body i).getD top [])
  Rfc.toByte 1 p.padding_len ++ S.PRF seed (adrs 0) ++
    (Rfc.xor c.1 (S.PRF seed (adrs 1)) ++ Rfc.xor c.2 (S.PRF seed (adrs 2)))

/-- The string hashed for the key of the top node: the public seed and the address of the node. -/
def topKeyString (p : Params) (seed sig : Bytes) : Bytes :=
  let S := suiteOf p id
  Rfc.toByte 3 p.padding_len ++ seed ++
    Rfc.Suite.treeAdrs (p.d - 1) (treeOn S (Rfc.toNat (sig.take p.index_bytes)) (p.d - 1)) (p.tree_height - 1) 0 0

/-- Acceptance means that the top string hashes to the root. -/
theorem accepted_topString (hp : f.parse oid = some p) (hH : coreHash P p.func p.n = some H) (root seed : Bytes)
    (hkr : root.length = p.n) (hks : seed.length = p.n) (sig msg m : Bytes) (l0 : Nat) (hs : sig.length = p.sig_bytes)
    (h64 : p.sig_bytes + msg.length < 2 ^ 64) (hm : p.sig_bytes + msg.length ≤ m.length) (r : OpenOut)
    (hr : f.signOpen P m l0 (sig ++ msg) (p.sig_bytes + msg.length) (Rfc.toByte oid 4 ++ root ++ seed) = some r)
    (hacc : r.ret = 0) : H (topString p H root seed sig msg) = root := by
  obtain ⟨g, hskb, ho, _⟩ := Family.facts (P := P) hp
  have htop := accepted_top hp hH ⟨[], [], root, seed⟩ hkr hks sig msg m l0 hs h64 hm r hr hacc
  simp only at htop
  have hd := g.d_pos
  have hth := g.th_pos
  set S := suiteOf p H with hS
  have hhp : S.hp = p.tree_height := g.hp_eq H
  set idx := Rfc.toNat (sig.take p.index_bytes) with hidx
  set body := sig.drop (p.index_bytes + p.n) with hbody
  set M := S.digest ((sig.drop p.index_bytes).take p.n) root idx msg with hM
  have hleaf : leafOn S idx (p.d - 1) < 2 ^ p.tree_height := by
    rw [← hhp]; exact Nat.mod_lt _ (by positivity)
  have la : (recvAuth S body (p.d - 1)).length = p.tree_height := by simp [recvAuth, Rfc.blocks, hhp]
  refine Eq.trans ?_ htop
  have e : recvMsg S seed idx body M p.d = recvMsg S seed idx body M (p.d - 1 + 1) := by rw [Nat.sub_add_cancel hd]
  rw [e, recvMsg_succ]
  have hpn := pathNode_succ S seed (p.d - 1) (treeOn S idx (p.d - 1)) (leafOn S idx (p.d - 1))
    (recvLeaf S seed idx body M (p.d - 1)) (recvAuth S body (p.d - 1)) (p.tree_height - 1) (by omega)
  rw [Nat.sub_add_cancel hth, Nat.div_eq_of_lt hleaf, pathNode, List.take_of_length_le (by omega)] at hpn
  rw [hpn]
  rfl

/-- Two registered parameter sets (of either family) with the same hash function and output length have the same prefix
length, and are the same set if number of layers and height of a tree agree. -/
theorem same_hash_sets {f f' : Family} {oid oid' : Nat} {p p' : Params} (hp : f.parse oid = some p)
    (hp' : f'.parse oid' = some p') (hf : p.func = p'.func) (hn : p.n = p'.n) :
    p.padding_len = p'.padding_len ∧ p.d - 1 < 12 ∧ p.tree_height - 1 < 20 ∧
      (p.d = p'.d → p.tree_height = p'.tree_height → f = f' ∧ oid = oid') := by
  have ent : ∀ {f : Family} {oid : Nat} {p : Params}, f.parse oid = some p →
      ∃ e ∈ (Registry.xmss.map fun e => (Family.xmss, e)) ++ (Registry.xmssmt.map fun e => (Family.xmssmt, e)),
        e.1 = f ∧ e.2.oid = oid ∧ p.func = funcOf e.2.family ∧ p.n = e.2.n ∧ p.padding_len = e.2.pad ∧ p.d = e.2.d ∧
        p.tree_height = e.2.h / e.2.d := by
    intro f oid p hp
    cases f with
    | xmss =>
      obtain ⟨e, he, ho, rfl⟩ := xmss_parse_entry hp
      exact ⟨(.xmss, e), List.mem_append_left _ (List.mem_map_of_mem he), rfl, ho, rfl, rfl, rfl, rfl, rfl⟩
    | xmssmt =>
      obtain ⟨e, he, ho, rfl⟩ := xmssmt_parse_entry hp
      exact ⟨(.xmssmt, e), List.mem_append_right _ (List.mem_map_of_mem he), rfl, ho, rfl, rfl, rfl, rfl, rfl⟩
  have key : ∀ e ∈ (Registry.xmss.map fun e => (Family.xmss, e)) ++ (Registry.xmssmt.map fun e => (Family.xmssmt, e)),
      ∀ e' ∈ (Registry.xmss.map fun e => (Family.xmss, e)) ++ (Registry.xmssmt.map fun e => (Family.xmssmt, e)),
      funcOf e.2.family = funcOf e'.2.family → e.2.n = e'.2.n →
      e.2.pad = e'.2.pad ∧ e.2.d - 1 < 12 ∧ e.2.h / e.2.d - 1 < 20 ∧
        (e.2.d = e'.2.d → e.2.h / e.2.d = e'.2.h / e'.2.d → e.1 = e'.1 ∧ e.2.oid = e'.2.oid) := by decide +kernel
  obtain ⟨e, he, h1, h2, h3, h4, h5, h6, h7⟩ := ent hp
  obtain ⟨e', he', h1', h2', h3', h4', h5', h6', h7'⟩ := ent hp'
  rw [h3, h3'] at hf
  rw [h4, h4'] at hn
  have k := key e he e' he' hf hn
  rw [h5, h5', h6, h6', h7, h7', ← h1, ← h1', ← h2, ← h2']
  exact k

/-- **C82.**  A root belongs to one public key.  Take two public keys with the same root, whose parameter sets (of either
family) have the same hash function and output length, and which differ in the family, the OID or the public seed; nothing
else is assumed of them.  If open accepts anything at all under the one and anything at all under the other, then the hash
function has an explicit collision: between the strings hashed for the two top nodes, or between the strings hashed for
the keys of these nodes. -/
theorem C82_root_commits {f' : Family} {oid' : Nat} {p' : Params} (hp : f.parse oid = some p) (hp' : f'.parse oid' = some p')
    (hfunc : p.func = p'.func) (hn : p.n = p'.n) (hH : coreHash P p.func p.n = some H) (root seed seed' : Bytes)
    (hkr : root.length = p.n) (hks : seed.length = p.n) (hks' : seed'.length = p.n)
    (hne : (f, oid, seed) ≠ (f', oid', seed'))
    (sig msg m sig' msg' m' : Bytes) (l0 l0' : Nat)
    (hs : sig.length = p.sig_bytes) (hs' : sig'.length = p'.sig_bytes)
    (h64 : p.sig_bytes + msg.length < 2 ^ 64) (h64' : p'.sig_bytes + msg'.length < 2 ^ 64)
    (hm : p.sig_bytes + msg.length ≤ m.length) (hm' : p'.sig_bytes + msg'.length ≤ m'.length) (r r' : OpenOut)
    (hr : f.signOpen P m l0 (sig ++ msg) (p.sig_bytes + msg.length) (Rfc.toByte oid 4 ++ root ++ seed) = some r)
    (hr' : f'.signOpen P m' l0' (sig' ++ msg') (p'.sig_bytes + msg'.length) (Rfc.toByte oid' 4 ++ root ++ seed') = some r')
    (hacc : r.ret = 0) (hacc' : r'.ret = 0) :
    (topString p H root seed sig msg ≠ topString p' H root seed' sig' msg' ∧
      H (topString p H root seed sig msg) = H (topString p' H root seed' sig' msg')) ∨
    (topKeyString p seed sig ≠ topKeyString p' seed' sig' ∧ H (topKeyString p seed sig) = H (topKeyString p' seed' sig')) := by
  obtain ⟨g, _, _, _⟩ := Family.facts (P := P) hp
  obtain ⟨g', _, _, _⟩ := Family.facts (P := P) hp'
  have hHl := Family.hash_length hp hH
  have hH' : coreHash P p'.func p'.n = some H := by rw [← hfunc, ← hn]; exact hH
  have e1 := accepted_topString hp hH root seed hkr hks sig msg m l0 hs h64 hm r hr hacc
  have e2 := accepted_topString hp' hH' root seed' (hkr.trans hn) (hks'.trans hn) sig' msg' m' l0' hs' h64' hm' r' hr' hacc'
  obtain ⟨hpad, b1, b2, hsets⟩ := same_hash_sets hp hp' hfunc hn
  obtain ⟨_, b1', b2', _⟩ := same_hash_sets hp' hp hfunc.symm hn.symm
  by_cases he : topString p H root seed sig msg = topString p' H root seed' sig' msg'
  · right
    constructor
    · intro hc
      rw [topKeyString, topKeyString, hpad] at hc
      simp only [List.append_assoc] at hc
      have hc := List.append_cancel_left hc
      have hc := List.append_inj hc (hks.trans hks'.symm)
      obtain ⟨hseed, hadr⟩ := hc
      simp only [Rfc.Suite.treeAdrs, List.append_assoc] at hadr
      have h1 := List.append_inj hadr (by simp [toByte_length])
      have h2 := List.append_inj h1.2 (by simp [toByte_length])
      have h3 := List.append_cancel_left h2.2
      have h4 := List.append_cancel_left h3
      have h5 := (List.append_inj h4 (by simp [toByte_length])).1
      have hd := toByte_inj (by norm_num; omega) (by norm_num; omega) h1.1
      have ht := toByte_inj (by norm_num; omega) (by norm_num; omega) h5
      have := g.d_pos
      have := g'.d_pos
      have := g.th_pos
      have := g'.th_pos
      obtain ⟨hf, ho⟩ := hsets (by omega) (by omega)
      exact hne (by rw [hf, ho, hseed])
    · have he' := he
      rw [topString, topString, hpad] at he'
      simp only [List.append_assoc] at he'
      have he' := List.append_cancel_left he'
      have he' := (List.append_inj he' ((hHl _).trans (hHl _).symm)).1
      rw [topKeyString, topKeyString, hpad]
      have q : H (Rfc.toByte 3 p.padding_len ++ seed ++ _) = H (Rfc.toByte 3 p'.padding_len ++ seed' ++ _) := he'
      rw [hpad] at q
      exact q
  · exact Or.inl ⟨he, e1.trans e2.symm⟩

/-- The hypotheses of C82 are met: with a worthless hash function, by two keys of XMSS-SHA2_10_256 with the same root and
different seeds. -/
theorem C82_met (seed seed' : Bytes) (hks : seed.length = 32) (hks' : seed'.length = 32) (hne : seed ≠ seed') (sig msg : Bytes)
    (hs : sig.length = 2500) (h64 : 2500 + msg.length < 2 ^ 64) :
    topKeyString Toy.p seed sig ≠ topKeyString Toy.p seed' sig ∨
      topString Toy.p constPrims.sha256 (List.replicate 32 0) seed sig msg ≠
        topString Toy.p constPrims.sha256 (List.replicate 32 0) seed' sig msg := by
  have hsb : Toy.p.sig_bytes = 2500 := by decide
  obtain ⟨r, h1, h2⟩ := worthless_accepts seed hks sig msg (List.replicate (2500 + msg.length) 0) 0 hs h64 (by simp)
  obtain ⟨r', h1', h2'⟩ := worthless_accepts seed' hks' sig msg (List.replicate (2500 + msg.length) 0) 0 hs h64 (by simp)
  have h := C82_root_commits (P := constPrims) (f := .xmss) (f' := .xmss) (oid := 1) (oid' := 1) (p := Toy.p) (p' := Toy.p)
    (H := constPrims.sha256) rfl rfl rfl rfl rfl
    (List.replicate 32 0) seed seed' (List.length_replicate ..) hks hks' (by simpa using hne) sig msg (List.replicate (2500 + msg.length) 0)
    sig msg (List.replicate (2500 + msg.length) 0) 0 0 (hs.trans hsb.symm) (hs.trans hsb.symm) (by rw [hsb]; exact h64)
    (by rw [hsb]; exact h64) (by rw [hsb, List.length_replicate]) (by rw [hsb, List.length_replicate]) r r'
    (by rw [hsb]; exact h1) (by rw [hsb]; exact h1') h2 h2'
  exact h.elim (fun h => Or.inr h.1) (fun h => Or.inl h.1)

end Xmss
