import Verif.Props.Forgery
import Verif.Proof.FastState
import Verif.Props.Toy
/-
C58: signatures are not malleable.  C48 speaks about messages that were not signed; here the accepted bytes may also be a
changed signature of a message that was signed.
-/
namespace Xmss

variable {P : Prims} {f : Family} {oid : Nat} {p : Params} {H : Bytes → Bytes}

/-- On layer `i` the received signature contains on some chain `j`, at the position `a` that its digit demands, a value
from which the chain reaches the key's own end of the chain through a collision: at position `a + s` the received chain
and the key's own chain differ, but their successors agree. -/
def ChainCollision (S : Rfc.Suite) (k : Key) (idx : Nat) (body M : Bytes) (i : Nat) : Prop :=
  ∃ j < S.len,
    let adrs := Rfc.Suite.otsAdrs i (treeOn S idx i) (leafOn S idx i) j
    let a := (S.wotsDigits (recvMsg S k.pubSeed idx body M i)).getD j 0
    let x := (recvSig S body i).getD j []
    ∃ s, a + s < S.w - 1 ∧ S.chain k.pubSeed adrs x a s ≠ ownChain S k idx i j (a + s) ∧
      S.chainStep k.pubSeed adrs (a + s) (S.chain k.pubSeed adrs x a s) =
        S.chainStep k.pubSeed adrs (a + s) (ownChain S k idx i j (a + s))

/-- Along two authentication paths with the same end, either some parent has two different pairs of children, or the
paths are the same. -/
theorem climb_collision_auth (S : Rfc.Suite) (pubSeed : Bytes) (layer tree i : Nat) (leaf leaf' : Bytes)
    (auth auth' : List Bytes) (hl : auth.length = auth'.length) :
    ∀ K ≤ auth.length, pathNode S pubSeed layer tree i leaf auth K = pathNode S pubSeed layer tree i leaf' auth' K →
      (∀ k < K, auth.getD k [] = auth'.getD k []) ∨
      ∃ k < K, TreeCollision S pubSeed (Rfc.Suite.treeAdrs layer tree k (i / 2 ^ (k + 1)))
        (children i k (pathNode S pubSeed layer tree i leaf auth k) (auth.getD k []))
        (children i k (pathNode S pubSeed layer tree i leaf' auth' k) (auth'.getD k [])) := by
  intro K
  induction K with
  | zero => intro _ _; exact Or.inl fun k hk => absurd hk (by omega)
  | succ K ih =>
    intro hK h
    rw [pathNode_succ _ _ _ _ _ _ _ _ (by omega), pathNode_succ _ _ _ _ _ _ _ _ (by omega)] at h
    by_cases hc : children i K (pathNode S pubSeed layer tree i leaf auth K) (auth.getD K []) =
        children i K (pathNode S pubSeed layer tree i leaf' auth' K) (auth'.getD K [])
    · have he : pathNode S pubSeed layer tree i leaf auth K = pathNode S pubSeed layer tree i leaf' auth' K ∧
          auth.getD K [] = auth'.getD K [] := by
        unfold children at hc
        split at hc <;> simp only [Prod.mk.injEq] at hc
        · exact hc
        · exact ⟨hc.2, hc.1⟩
      rcases ih (by omega) he.1 with h' | ⟨k, hk, h'⟩
      · refine Or.inl fun k hk => ?_
        rcases Nat.lt_succ_iff_lt_or_eq.mp hk with hk | rfl
        · exact h' k hk
        · exact he.2
      · exact Or.inr ⟨k, by omega, h'⟩
    · exact Or.inr ⟨K, by omega, hc, h⟩

/-- A layer on which the root arrives right: a collision, or the received authentication path is the key's own. -/
theorem auth_binding (S : Rfc.Suite) (k : Key) (idx : Nat) (body M : Bytes) (i : Nat)
    (h : recvMsg S k.pubSeed idx body M (i + 1) = S.treeRoot k.skSeed k.pubSeed i (treeOn S idx i)) :
    TreePathCollision S k idx body M i ∨
      recvAuth S body i = S.authPath k.skSeed k.pubSeed i (treeOn S idx i) (leafOn S idx i) := by
  have hleaf : leafOn S idx i < 2 ^ S.hp := Nat.mod_lt _ (by positivity)
  have la : (recvAuth S body i).length = S.hp := by simp [recvAuth, Rfc.blocks]
  have lb : (S.authPath k.skSeed k.pubSeed i (treeOn S idx i) (leafOn S idx i)).length = S.hp := by
    simp [Rfc.Suite.authPath]
  have hc := climb_collision_auth S k.pubSeed i (treeOn S idx i) (leafOn S idx i) (recvLeaf S k.pubSeed idx body M i)
    (S.leaf k.skSeed k.pubSeed i (treeOn S idx i) (leafOn S idx i)) (recvAuth S body i)
    (S.authPath k.skSeed k.pubSeed i (treeOn S idx i) (leafOn S idx i)) (la.trans lb.symm) S.hp la.ge (by
      rw [pathNode_honest _ _ _ _ _ _ _ (Nat.le_refl _), Nat.div_eq_of_lt hleaf, pathNode,
        List.take_of_length_le la.le]
      exact h)
  rcases hc with hc | ⟨h', hh', hc⟩
  · refine Or.inr (List.ext_getElem (la.trans lb.symm) fun j h1 h2 => ?_)
    have := hc j (by omega)
    simpa [List.getD_eq_getElem?_getD, List.getElem?_eq_getElem h1, List.getElem?_eq_getElem h2] using this
  · refine Or.inl ⟨h', hh', ?_⟩
    rw [pathNode_honest _ _ _ _ _ _ _ (by omega)] at hc
    have ha : (S.authPath k.skSeed k.pubSeed i (treeOn S idx i) (leafOn S idx i)).getD h' [] =
        S.node k.skSeed k.pubSeed i (treeOn S idx i) h' (Rfc.Suite.sibling (leafOn S idx i / 2 ^ h')) := by
      rw [List.getD_eq_getElem?_getD, List.getElem?_eq_getElem (by omega)]
      simp [Rfc.Suite.authPath]
    rw [ha] at hc
    exact hc

/-- A layer on which the WOTS key is the key's own: a chain collision, or the received WOTS signature is the key's own
signature of the value it is checked against. -/
theorem wots_binding (S : Rfc.Suite) (hw : 0 < S.w) (k : Key) (idx : Nat) (body M : Bytes) (i : Nat)
    (hown : OwnWotsKey S k idx body M i) :
    ChainCollision S k idx body M i ∨
      recvSig S body i = S.wotsSig k.skSeed k.pubSeed (recvMsg S k.pubSeed idx body M i) i (treeOn S idx i) (leafOn S idx i) := by
  have la : (recvSig S body i).length = S.len := by simp [recvSig, Rfc.blocks]
  have lb : (S.wotsSig k.skSeed k.pubSeed (recvMsg S k.pubSeed idx body M i) i (treeOn S idx i) (leafOn S idx i)).length =
      S.len := by simp [Rfc.Suite.wotsSig]
  by_cases hall : ∀ j < S.len, (recvSig S body i).getD j [] =
      ownChain S k idx i j ((S.wotsDigits (recvMsg S k.pubSeed idx body M i)).getD j 0)
  · refine Or.inr (List.ext_getElem (la.trans lb.symm) fun j h1 h2 => ?_)
    have := hall j (by omega)
    rw [List.getD_eq_getElem?_getD, List.getElem?_eq_getElem h1, Option.getD_some] at this
    rw [this]
    simp [Rfc.Suite.wotsSig, ownChain]
  · left
    push Not at hall
    obtain ⟨j, hj, hne⟩ := hall
    refine ⟨j, hj, ?_⟩
    intro adrs a x
    have ha : a < S.w := wotsDigits_getD_lt S hw _ j
    have h := congrArg (fun l => l.getD j []) hown
    simp only [recvPk] at h
    rw [wotsPkFromSig_getD _ _ _ _ _ _ _ _ hj] at h
    have hpk : (S.wotsPk k.skSeed k.pubSeed i (treeOn S idx i) (leafOn S idx i)).getD j [] =
        ownChain S k idx i j (S.w - 1) := by
      simp [Rfc.Suite.wotsPk, List.getD_eq_getElem?_getD, hj, ownChain]
    rw [hpk] at h
    have own_add : ∀ s, ownChain S k idx i j (a + s) = S.chain k.pubSeed adrs (ownChain S k idx i j a) a s := by
      intro s
      have e := chain_add S k.pubSeed adrs (S.wotsSk k.skSeed k.pubSeed i (treeOn S idx i) (leafOn S idx i) j) 0 a s
      rw [Nat.zero_add] at e
      exact e
    have key : S.chain k.pubSeed adrs x a (S.w - 1 - a) = S.chain k.pubSeed adrs (ownChain S k idx i j a) a (S.w - 1 - a) := by
      rw [← own_add, show a + (S.w - 1 - a) = S.w - 1 by omega, ← h]
    rcases chain_merge S k.pubSeed adrs a _ _ _ key with h | ⟨s, hs, h1, h2⟩
    · exact absurd h hne
    · refine ⟨s, by omega, ?_, ?_⟩
      · rw [own_add]; exact h1
      · rw [own_add]; exact h2

/-- A body whose layers are the key's own is the body of the key's own signature. -/
theorem body_eq_signLayers (S : Rfc.Suite) (k : Key) (idx : Nat) (body M : Bytes) (d : Nat)
    (hlen : body.length = d * partLen S)
    (hs : ∀ i < d, recvSig S body i =
      S.wotsSig k.skSeed k.pubSeed (recvMsg S k.pubSeed idx body M i) i (treeOn S idx i) (leafOn S idx i))
    (ha : ∀ i < d, recvAuth S body i = S.authPath k.skSeed k.pubSeed i (treeOn S idx i) (leafOn S idx i))
    (hm : ∀ i < d, 0 < i → recvMsg S k.pubSeed idx body M i = S.treeRoot k.skSeed k.pubSeed (i - 1) (treeOn S idx (i - 1))) :
    ∀ n l, l + n = d → body.drop (l * partLen S) =
      S.signLayers k.skSeed k.pubSeed n l (idx / 2 ^ (S.hp * l)) (recvMsg S k.pubSeed idx body M l) := by
  intro n
  induction n with
  | zero =>
    intro l hl
    rw [Rfc.Suite.signLayers, show l = d by omega, ← hlen, List.drop_length]
  | succ n ih =>
    intro l hl
    have e : idx / 2 ^ (S.hp * l) / 2 ^ S.hp = treeOn S idx l := by
      rw [Nat.div_div_eq_div_mul, ← pow_add]; rfl
    rw [Rfc.Suite.signLayers]
    simp only [e]
    show _ = (S.wotsSig k.skSeed k.pubSeed _ l (treeOn S idx l) (leafOn S idx l)).flatten ++
      (S.authPath k.skSeed k.pubSeed l (treeOn S idx l) (leafOn S idx l)).flatten ++ _
    rw [← hs l (by omega), ← ha l (by omega)]
    have hih := ih (l + 1) (by omega)
    have htail : S.signLayers k.skSeed k.pubSeed n (l + 1) (treeOn S idx l) (S.treeRoot k.skSeed k.pubSeed l (treeOn S idx l)) =
        body.drop ((l + 1) * partLen S) := by
      rw [hih]
      cases n with
      | zero => rfl
      | succ n =>
        rw [hm (l + 1) (by omega) (by omega)]
        rfl
    rw [htail, recvSig, recvAuth]
    set b := body.drop (l * partLen S) with hb
    have hbl : b.length = (n + 1) * partLen S := by
      rw [hb, List.length_drop, hlen, ← hl, Nat.add_mul l]; omega
    have hpl : partLen S = S.len * S.n + S.hp * S.n := by rw [partLen, Nat.add_mul]
    have h1 : (Rfc.blocks S.n S.len b).flatten = b.take (S.len * S.n) := by
      have : Rfc.blocks S.n S.len b = Rfc.blocks S.n S.len (b.take (S.len * S.n)) := by
        simp only [Rfc.blocks]
        apply List.map_congr_left
        intro j hj
        have hj := List.mem_range.mp hj
        have : (j + 1) * S.n ≤ S.len * S.n := Nat.mul_le_mul_right _ hj
        rw [Nat.add_mul, one_mul] at this
        rw [List.drop_take, List.take_take, Nat.min_eq_left (by omega)]
      rw [this, ← chunks_eq_blocks, chunks_flat]
      rw [List.length_take, Nat.min_eq_left]
      rw [hbl, Nat.add_mul, one_mul]; omega
    have h2 : (Rfc.blocks S.n S.hp (b.drop (S.len * S.n))).flatten = (b.drop (S.len * S.n)).take (S.hp * S.n) := by
      have : Rfc.blocks S.n S.hp (b.drop (S.len * S.n)) = Rfc.blocks S.n S.hp ((b.drop (S.len * S.n)).take (S.hp * S.n)) := by
        simp only [Rfc.blocks]
        apply List.map_congr_left
        intro j hj
        have hj := List.mem_range.mp hj
        have : (j + 1) * S.n ≤ S.hp * S.n := Nat.mul_le_mul_right _ hj
        rw [Nat.add_mul, one_mul] at this
        rw [List.drop_take, List.take_take, Nat.min_eq_left (by omega)]
      rw [this, ← chunks_eq_blocks, chunks_flat]
      rw [List.length_take, List.length_drop, Nat.min_eq_left]
      rw [hbl, Nat.add_mul, one_mul]; omega
    rw [h1, h2]
    have e3 : body.drop ((l + 1) * partLen S) = (b.drop (S.len * S.n)).drop (S.hp * S.n) := by
      rw [hb, List.drop_drop, List.drop_drop]
      congr 1
      rw [Nat.add_mul, one_mul, hpl]
    rw [e3, List.append_assoc, List.take_append_drop, List.take_append_drop]

/-- What an accepted signed message `sig || msg` that the key did not issue contains: the conclusion of C58. -/
def Broken (p : Params) (H : Bytes → Bytes) (k : Key) (msgs : List Bytes) (sig msg : Bytes) : Prop :=
  let S := suiteOf p H
  let idx := Rfc.toNat (sig.take p.index_bytes)
  let R := (sig.drop p.index_bytes).take p.n
  let body := sig.drop (p.index_bytes + p.n)
  let M := S.digest R k.root idx msg
  (∃ i < p.d, TreePathCollision S k idx body M i ∨ LtreeCollision S k idx body M i ∨
    ChainBreak S k msgs idx body M i ∨ ChainCollision S k idx body M i) ∨
  DigestCollision S k msgs idx R msg ∨
  (2 ^ p.full_height ≤ idx ∧ RootCollision S k idx body M)

/-- The reduction behind C58, independent of which build signed: the bytes accepted are not the key's signed message of the
call with the index in them. -/
theorem strong_reduction (hp : f.parse oid = some p) (hH : coreHash P p.func p.n = some H) (k : Key) (hv : k.Valid p)
    (hh : k.Honest (suiteOf p H)) (cs : List Call) (hlen : cs.length ≤ 2 ^ p.full_height)
    (sig msg m : Bytes) (l0 : Nat) (r : OpenOut) (hsig : sig.length = p.sig_bytes) (h64 : p.sig_bytes + msg.length < 2 ^ 64)
    (hm : p.sig_bytes + msg.length ≤ m.length)
    (hr : f.signOpen P m l0 (sig ++ msg) (p.sig_bytes + msg.length) (k.pk oid) = some r) (hacc : r.ret = 0)
    (hnew : ∀ c, cs[Rfc.toNat (sig.take p.index_bytes)]? = some c → sig ++ msg ≠
      (suiteOf p H).sign k.skSeed k.skPrf k.root k.pubSeed (Rfc.toNat (sig.take p.index_bytes)) c.msg ++ c.msg) :
    Broken p H k (cs.map (·.msg)) sig msg := by
  obtain ⟨g, hskb, ho, _⟩ := Family.facts (P := P) hp
  have hHl := Family.hash_length hp hH
  unfold Broken
  intro S idx R body M
  by_cases hold : ∃ c, cs[idx]? = some c ∧ R = S.PRF k.skPrf (Rfc.toByte idx 32) ∧ c.msg = msg
  · obtain ⟨c, hc, hR, hmsg⟩ := hold
    have hjl : idx < cs.length := (List.getElem?_eq_some_iff.mp hc).1
    have hidx : idx < 2 ^ p.full_height := by omega
    have hne : sig ≠ S.sign k.skSeed k.skPrf k.root k.pubSeed idx msg := by
      intro he
      exact hnew c hc (by rw [hmsg]; exact congrArg (· ++ msg) he)
    have hMl : M.length = p.n := hHl _
    have hd := g.d_pos
    -- the top root is the honest one
    obtain ⟨r', h1, _, h3⟩ := C23_open_is_rfc hp hH k hv.root hv.pubSeed sig msg m l0 hsig h64 hm
    rw [hr] at h1
    cases h1
    have hver := h3.mp hacc
    have hhp : S.hp = p.tree_height := g.hp_eq H
    have htop : recvMsg S k.pubSeed idx body M p.d = k.root := by
      have h := verifyLayers_recv S k.pubSeed idx body M p.d 0
      simp only [Nat.mul_zero, pow_zero, Nat.div_one, Nat.zero_mul, List.drop_zero, Nat.zero_add] at h
      rw [← h]
      exact hver
    have htree : treeOn S idx (p.d - 1) = 0 := by
      rw [treeOn, Nat.sub_add_cancel hd, hhp, g.height]
      exact Nat.div_eq_of_lt hidx
    have htop' : recvMsg S k.pubSeed idx body M (p.d - 1 + 1) =
        S.treeRoot k.skSeed k.pubSeed (p.d - 1) (treeOn S idx (p.d - 1)) := by
      rw [Nat.sub_add_cancel hd, htop, htree, hh]; rfl
    rcases C28_acceptance_binds hp hH k hv hh sig msg m l0 hsig h64 hm r hr hacc hidx with
      ⟨i, hi, h⟩ | ⟨i, hi0, hi, hown, hne'⟩ | ⟨hown, hroot⟩
    · exact Or.inl ⟨i, hi, h.elim Or.inl (fun h => Or.inr (Or.inl h))⟩
    · obtain ⟨i, rfl⟩ : ∃ i', i = i' + 1 := ⟨i - 1, by omega⟩
      simp only [Nat.add_sub_cancel] at hne'
      refine Or.inl ⟨i + 1, hi, Or.inr (Or.inr (Or.inl ?_))⟩
      have l1 := recvMsg_length g hHl k.pubSeed idx body M hMl (i + 1)
      have l2 : (S.treeRoot k.skSeed k.pubSeed i (treeOn S idx i)).length = p.n := node_length g hHl _ _ _ _ _ _
      obtain ⟨j, hj, hlt⟩ := C07_checksum_partial p g _ _ l2 l1 (Ne.symm hne')
      rw [chainLengths_eq g H l1, chainLengths_eq g H l2] at hlt
      have hjS : j < S.len := by rw [show S.len = p.wots_len from g.len_eq' H]; exact hj
      have hb := wotsDigits_getD_lt S g.w_pos (S.treeRoot k.skSeed k.pubSeed i (treeOn S idx i)) j
      exact ⟨j, hjS, hlt, hb, chain_break_at S k idx body M (i + 1) j _ hown hjS hb hlt⟩
    · by_cases hA : ∃ i < p.d, TreePathCollision S k idx body M i ∨ ChainCollision S k idx body M i
      · obtain ⟨i, hi, h⟩ := hA
        exact Or.inl ⟨i, hi, h.elim Or.inl fun h => Or.inr (Or.inr (Or.inr h))⟩
      · exfalso
        push Not at hA
        have hsg : ∀ i < p.d, recvSig S body i =
            S.wotsSig k.skSeed k.pubSeed (recvMsg S k.pubSeed idx body M i) i (treeOn S idx i) (leafOn S idx i) := by
          intro i hi
          exact (wots_binding S g.w_pos k idx body M i (hown i hi)).resolve_left (hA i hi).2
        have hau : ∀ i < p.d, recvAuth S body i = S.authPath k.skSeed k.pubSeed i (treeOn S idx i) (leafOn S idx i) := by
          intro i hi
          refine (auth_binding S k idx body M i ?_).resolve_left (hA i hi).1
          by_cases hl : i + 1 < p.d
          · exact hroot (i + 1) hl (by omega)
          · rw [show i = p.d - 1 by omega]; exact htop'
        have hbl : body.length = p.d * partLen S := by
          have e1 : partLen S = (p.wots_len + p.tree_height) * p.n := by
            rw [partLen, show S.len = p.wots_len from g.len_eq' H, hhp]; rfl
          rw [e1]
          simp only [body, List.length_drop, hsig]
          rw [g.sig_eq']; omega
        have hb := body_eq_signLayers S k idx body M p.d hbl hsg hau hroot p.d 0 (by omega)
        simp only [Nat.mul_zero, pow_zero, Nat.div_one, Nat.zero_mul, List.drop_zero] at hb
        apply hne
        have h4 : p.index_bytes + p.n ≤ p.sig_bytes := by have := g.sig_eq'; omega
        have e0 : sig = sig.take p.index_bytes ++ (R ++ body) := by
          have : body = (sig.drop p.index_bytes).drop p.n := by rw [List.drop_drop]
          rw [this, List.take_append_drop, List.take_append_drop]
        have e1 : sig.take p.index_bytes = Rfc.toByte idx p.index_bytes := by
          have := toByte_toNat (sig.take p.index_bytes)
          rw [List.length_take, Nat.min_eq_left (by omega)] at this
          exact this.symm
        rw [e0, e1, hb, Rfc.Suite.sign, List.append_assoc]
        show Rfc.toByte idx p.index_bytes ++ (R ++ S.signLayers k.skSeed k.pubSeed p.d 0 idx M) = _
        simp only [M]
        rw [hR]
        rfl
  · have := forgery_reduction hp hH k hv hh cs sig msg m l0 r hsig h64 hm hr hacc
      (fun c hc h => hold ⟨c, hc, h.1, h.2⟩)
    rcases this with ⟨i, hi, h⟩ | h
    · refine Or.inl ⟨i, hi, ?_⟩
      rcases h with h | h | h
      · exact Or.inl h
      · exact Or.inr (Or.inl h)
      · exact Or.inr (Or.inr (Or.inl h))
    · exact Or.inr h

/-- **C58.**  After key generation and any history of at most `2^h - 1` sign calls, suppose open accepts a signed message
`sig || msg` that is not, byte for byte, one of the signed messages that the calls returned.  (So it may be a signed message
of the history with some bits of the signature changed.)  Then the accepted bytes, the key and the history contain
* a collision of the tree hash or of the L-tree hash on some layer, or
* on some layer a preimage of a published chain value, or a collision of the chaining function, or
* a collision of H_msg with the message signed at this index, or
* (only for an index outside the tree) a collision of the hash function at the root. -/
theorem C58_not_malleable (hp : f.parse oid = some p) (hH : coreHash P p.func p.n = some H) (pk0 sk0 : Bytes)
    (hpk : pk0.length = 4 + p.pk_bytes) (hsk : sk0.length = 4 + p.sk_bytes) (seed : Nat → Bytes)
    (hs : (seed p.n).length = 3 * p.n) :
    ∃ k : Key, k.Valid p ∧ f.keypair P pk0 sk0 oid seed = some (0, k.pk oid, k.sk p oid 0) ∧
      ∀ cs, Sized p cs → cs.length ≤ 2 ^ p.full_height - 1 → ∃ outs, signAll P f (k.sk p oid 0) cs = some outs ∧
        ∀ (sig msg m : Bytes) (l0 : Nat) (r : OpenOut), sig.length = p.sig_bytes → p.sig_bytes + msg.length < 2 ^ 64 →
          p.sig_bytes + msg.length ≤ m.length →
          f.signOpen P m l0 (sig ++ msg) (p.sig_bytes + msg.length) (k.pk oid) = some r → r.ret = 0 →
          (∀ o ∈ outs, o.sm ≠ sig ++ msg) →
          let S := suiteOf p H
          let idx := Rfc.toNat (sig.take p.index_bytes)
          let R := (sig.drop p.index_bytes).take p.n
          let body := sig.drop (p.index_bytes + p.n)
          let M := S.digest R k.root idx msg
          let msgs := cs.map (·.msg)
          (∃ i < p.d, TreePathCollision S k idx body M i ∨ LtreeCollision S k idx body M i ∨
            ChainBreak S k msgs idx body M i ∨ ChainCollision S k idx body M i) ∨
          DigestCollision S k msgs idx R msg ∨
          (2 ^ p.full_height ≤ idx ∧ RootCollision S k idx body M) := by
  obtain ⟨g, hskb, ho, _⟩ := Family.facts (P := P) hp
  obtain ⟨k, hv, hh, _, hk⟩ := keypair_key hp hH pk0 sk0 hpk hsk seed hs
  refine ⟨k, hv, hk, ?_⟩
  intro cs hcs hlen
  refine ⟨_, signAll_eq hp hH cs 0 k hv (by positivity) hcs, ?_⟩
  intro sig msg m l0 r hsig h64 hm hr hacc hnew
  have hpos : 0 < 2 ^ p.full_height := Nat.two_pow_pos _
  refine strong_reduction hp hH k hv hh cs (by omega) sig msg m l0 r hsig h64 hm hr hacc ?_
  intro c hc he
  have hjl := (List.getElem?_eq_some_iff.mp hc).1
  refine hnew (outcome p H oid (Rfc.toNat (sig.take p.index_bytes), k) c) ?_ ?_
  · refine List.mem_of_getElem? (i := Rfc.toNat (sig.take p.index_bytes)) ?_
    rw [List.getElem?_mapIdx, hc, Option.map_some, stateAfter_lt _ (by omega)]
  · simp only [outcome, if_pos (show Rfc.toNat (sig.take p.index_bytes) < 2 ^ p.full_height - 1 by omega)]
    exact he.symm

/-! ### Non-vacuity -/

/-- A worthless hash function: everything hashes to zero. -/
def constPrims : Prims where
  sha256 := fun _ => List.replicate 32 0
  sha512 := fun _ => List.replicate 64 0
  sha256_length := fun _ => by simp
  sha512_length := fun _ => by simp

theorem climb_const (S : Rfc.Suite) (z : Bytes) (hz : ∀ x, S.hash x = z) (seed : Bytes) (l t : Nat) :
    ∀ (auth : List Bytes) (h i : Nat) (x : Bytes), auth ≠ [] → S.climb seed l t h i x auth = z := by
  intro auth
  induction auth with
  | nil => intro _ _ _ h; exact absurd rfl h
  | cons a rest ih =>
    intro h i x _
    rw [Rfc.Suite.climb]
    cases rest with
    | nil => rw [Rfc.Suite.climb]; split <;> exact hz _
    | cons b rest => exact ih _ _ _ (by simp)

/-- Non-vacuity of C58: all its hypotheses are met, for XMSS-SHA2_10_256 with a worthless hash function in place of SHA-256,
by a signed message from the history with the last byte of the signature flipped (for every history and every message in it). -/
theorem C58_met_by_worthless_hash (k : Key) (hv : k.Valid Toy.p) (hroot : k.root = List.replicate 32 0)
    (cs : List Call) (hcs : Sized Toy.p cs) (hlen : cs.length ≤ 2 ^ 10 - 1) (outs : List SignOut)
    (hall : signAll constPrims .xmss (k.sk Toy.p 1 0) cs = some outs) (c : Call) (o : SignOut) (j : Nat) (hc : cs[j]? = some c)
    (ho : outs[j]? = some o) (m : Bytes) (l0 : Nat) (h64 : Toy.p.sig_bytes + c.msg.length < 2 ^ 64)
    (hm : Toy.p.sig_bytes + c.msg.length ≤ m.length) :
    let sig := o.sm.take (Toy.p.sig_bytes - 1) ++ [o.sm.getD (Toy.p.sig_bytes - 1) 0 + 1]
    sig.length = Toy.p.sig_bytes ∧ (∀ o' ∈ outs, o'.sm ≠ sig ++ c.msg) ∧
      ∃ r, Family.xmss.signOpen constPrims m l0 (sig ++ c.msg) (Toy.p.sig_bytes + c.msg.length) (k.pk 1) = some r ∧ r.ret = 0 := by
  intro sig
  have hp : Family.xmss.parse 1 = some Toy.p := rfl
  have hH : coreHash constPrims Toy.p.func Toy.p.n = some constPrims.sha256 := rfl
  obtain ⟨g, hskb, _, _⟩ := Family.facts (P := constPrims) hp
  have hHl := Family.hash_length hp hH
  have e := signAll_eq (P := constPrims) hp hH cs 0 k hv (by positivity) hcs
  rw [hall] at e
  have e := Option.some.inj e
  have hget : ∀ i c, cs[i]? = some c → outs[i]? = some (outcome Toy.p constPrims.sha256 1 (i, k) c) := by
    intro i c hc
    have hi : i < cs.length := (List.getElem?_eq_some_iff.mp hc).1
    rw [e, List.getElem?_mapIdx, hc, Option.map_some, stateAfter_lt _ (show i ≤ 2 ^ Toy.p.full_height - 1 by
      show i ≤ 2 ^ 10 - 1; omega)]
  have hsm : ∀ i c, cs[i]? = some c → (outcome Toy.p constPrims.sha256 1 (i, k) c).sm =
      (suiteOf Toy.p constPrims.sha256).sign k.skSeed k.skPrf k.root k.pubSeed i c.msg ++ c.msg := by
    intro i c hc
    have hi : i < cs.length := (List.getElem?_eq_some_iff.mp hc).1
    simp only [outcome, if_pos (show i < 2 ^ Toy.p.full_height - 1 by show i < 2 ^ 10 - 1; omega)]
  have hsl : ∀ i m, ((suiteOf Toy.p constPrims.sha256).sign k.skSeed k.skPrf k.root k.pubSeed i m).length = Toy.p.sig_bytes :=
    fun i m => sign_length g hHl _ _ _ _ i m
  have hsb : Toy.p.sig_bytes = 2500 := by decide
  have ho' := hget j c hc
  rw [ho] at ho'
  have ho' := Option.some.inj ho'
  have hom : o.sm.length = 2500 + c.msg.length := by
    rw [ho', hsm j c hc, List.length_append, hsl, hsb]
  have hl : sig.length = Toy.p.sig_bytes := by
    simp only [sig, List.length_append, List.length_take, List.length_singleton, hom, hsb]; omega
  refine ⟨hl, ?_, ?_⟩
  · intro o1 ho1 heq
    obtain ⟨i, hi⟩ := List.getElem?_of_mem ho1
    have hil : i < cs.length := by
      have := (List.getElem?_eq_some_iff.mp hi).1
      rw [e, List.length_mapIdx] at this; exact this
    have hci : cs[i]? = some cs[i] := List.getElem?_eq_getElem hil
    have := hget i _ hci
    rw [hi] at this
    have := Option.some.inj this
    rw [this, hsm i _ hci] at heq
    have h1 := (List.append_inj heq (by rw [hsl, hl])).1
    -- same index bytes, so the same call
    have htk : sig.take 4 = o.sm.take 4 := by
      simp only [sig, hsb]
      rw [List.take_append_of_le_length (by rw [List.length_take, hom]; omega), List.take_take]
      rfl
    have hidx : ∀ i m, ((suiteOf Toy.p constPrims.sha256).sign k.skSeed k.skPrf k.root k.pubSeed i m).take 4 = Rfc.toByte i 4 := by
      intro i m
      rw [Rfc.Suite.sign, List.append_assoc]
      exact List.take_left' (toByte_length _ _)
    have h4 : Rfc.toByte i 4 = Rfc.toByte j 4 := by
      rw [← hidx i cs[i].msg, h1, htk, ho', hsm j c hc, List.take_append_of_le_length (by rw [hsl, hsb]; omega), hidx]
    have hjl : j < cs.length := (List.getElem?_eq_some_iff.mp hc).1
    have hij : i = j := by
      have h5 := congrArg Rfc.toNat h4
      rw [toNat_toByte, toNat_toByte, Nat.mod_eq_of_lt (by omega), Nat.mod_eq_of_lt (by omega)] at h5
      exact h5
    subst hij
    rw [hci] at hc
    have hc := Option.some.inj hc
    -- the last byte differs
    have h6 : o.sm.take 2500 = sig := by
      rw [ho', ← hc, hsm i _ hci, ← h1, List.take_left' ((hsl _ _).trans hsb)]
    have h7 : o.sm.take 2500 = o.sm.take 2499 ++ [o.sm.getD 2499 0] := by
      rw [List.getD_eq_getElem?_getD, List.getElem?_eq_getElem (by omega), Option.getD_some]
      exact List.take_succ_eq_append_getElem (by omega)
    rw [h7] at h6
    simp only [sig, hsb] at h6
    have h8 := (List.append_inj h6 rfl).2
    simp only [List.cons.injEq, and_true, show 2500 - 1 = 2499 from rfl] at h8
    have h9 := congrArg UInt8.toNat h8
    rw [UInt8.toNat_add, show (1 : UInt8).toNat = 1 from rfl] at h9
    have := (o.sm.getD 2499 0).toNat_lt
    omega
  · obtain ⟨r, h1, _, h3⟩ := C23_open_is_rfc (P := constPrims) hp hH k hv.root hv.pubSeed sig c.msg m l0 hl h64 hm
    refine ⟨r, h1, h3.mpr ?_⟩
    rw [Rfc.Suite.verify, hroot, Rfc.Suite.verifyRoot]
    show Rfc.Suite.verifyLayers _ _ 1 0 _ _ _ = _
    rw [Rfc.Suite.verifyLayers, Rfc.Suite.verifyLayers, Rfc.Suite.rootFromSig]
    apply climb_const
    · intro x; rfl
    · simp only [Rfc.blocks]
      rw [show (suiteOf Toy.p constPrims.sha256).hp = 9 + 1 from by decide]
      simp

end Xmss
