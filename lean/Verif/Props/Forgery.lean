import Verif.Props.Binding
import Verif.Props.Wots
/-
C48: what an accepted forgery gives away.  C28 (tree and L-tree), C09 (WOTS), C29 (index range) and the history of sign
calls are put together into one reduction.
-/
namespace Xmss

variable {P : Prims} {f : Family} {oid : Nat} {p : Params} {H : Bytes → Bytes}

/-- What the key has signed with the one-time key that index `idx` uses on layer `i`, when it has signed the messages
`msgs` in this order: on layer 0 the digest of message number `idx`, if there is one; above, the root of the tree below. -/
def signedOn (S : Rfc.Suite) (k : Key) (msgs : List Bytes) (idx : Nat) : Nat → Option Bytes
  | 0 => (msgs[idx]?).map fun m => S.digest (S.PRF k.skPrf (Rfc.toByte idx 32)) k.root idx m
  | i + 1 => some (S.treeRoot k.skSeed k.pubSeed i (treeOn S idx i))

/-- The position of chain `j` that the key has made public: the digit of the signed value, or the end of the chain (part
of the WOTS public key) if the one-time key is unused. -/
def publicPos (S : Rfc.Suite) (signed : Option Bytes) (j : Nat) : Nat :=
  match signed with
  | some M => (S.wotsDigits M).getD j 0
  | none => S.w - 1

/-- The key's own value at position `pos` of chain `j` of the one-time key that `idx` uses on layer `i`. -/
def ownChain (S : Rfc.Suite) (k : Key) (idx i j pos : Nat) : Bytes :=
  S.chain k.pubSeed (Rfc.Suite.otsAdrs i (treeOn S idx i) (leafOn S idx i) j)
    (S.wotsSk k.skSeed k.pubSeed i (treeOn S idx i) (leafOn S idx i) j) 0 pos

/-- On layer `i` the received signature breaks the chaining function: on some chain `j` it contains a value at a position
`a` strictly before the position `b` that the key has made public, and hashing it forward to `b` gives the key's own
value (a preimage), or from there on two different values at the same position have the same successor (a collision). -/
def ChainBreak (S : Rfc.Suite) (k : Key) (msgs : List Bytes) (idx : Nat) (body M : Bytes) (i : Nat) : Prop :=
  ∃ j < S.len,
    let adrs := Rfc.Suite.otsAdrs i (treeOn S idx i) (leafOn S idx i) j
    let a := (S.wotsDigits (recvMsg S k.pubSeed idx body M i)).getD j 0
    let b := publicPos S (signedOn S k msgs idx i) j
    let x := S.chain k.pubSeed adrs ((recvSig S body i).getD j []) a (b - a)
    a < b ∧ b < S.w ∧
      (x = ownChain S k idx i j b ∨
        ∃ s, b + s < S.w - 1 ∧ S.chain k.pubSeed adrs x b s ≠ ownChain S k idx i j (b + s) ∧
          S.chainStep k.pubSeed adrs (b + s) (S.chain k.pubSeed adrs x b s) =
            S.chainStep k.pubSeed adrs (b + s) (ownChain S k idx i j (b + s)))

/-- The string hashed for the digest of a message: H_msg with key `R || root || index`. -/
def digestString (S : Rfc.Suite) (r root : Bytes) (idx : Nat) (msg : Bytes) : Bytes :=
  Rfc.toByte 2 S.pad ++ (r ++ root ++ Rfc.toByte idx S.n) ++ msg

/-- The forged message and message number `idx` of the history collide under H_msg. -/
def DigestCollision (S : Rfc.Suite) (k : Key) (msgs : List Bytes) (idx : Nat) (r msg : Bytes) : Prop :=
  ∃ m', msgs[idx]? = some m' ∧
    let x := digestString S r k.root idx msg
    let y := digestString S (S.PRF k.skPrf (Rfc.toByte idx 32)) k.root idx m'
    x ≠ y ∧ S.hash x = S.hash y

/-- Conclusion of C29 for an index outside the tree: a collision of the hash function at the root, or of the two PRF calls
with the addresses of the root and of the top node of the nonexistent tree. -/
def RootCollision (S : Rfc.Suite) (k : Key) (idx : Nat) (body M : Bytes) : Prop :=
  let i := S.d - 1
  let top := S.hp - 1
  let leaf := leafOn S idx i
  let adrs := fun tree => Rfc.Suite.treeAdrs i tree top 0
  let str := fun tree (c : Bytes × Bytes) => Rfc.toByte 1 S.pad ++ S.PRF k.pubSeed (adrs tree 0) ++
    (Rfc.xor c.1 (S.PRF k.pubSeed (adrs tree 1)) ++ Rfc.xor c.2 (S.PRF k.pubSeed (adrs tree 2)))
  let prfStr := fun tree => Rfc.toByte 3 S.pad ++ k.pubSeed ++ adrs tree 0
  let received := str (treeOn S idx i) (children leaf top
    (pathNode S k.pubSeed i (treeOn S idx i) leaf (recvLeaf S k.pubSeed idx body M i) (recvAuth S body i) top)
    ((recvAuth S body i).getD top []))
  let own := str 0 (S.node k.skSeed k.pubSeed i 0 top 0, S.node k.skSeed k.pubSeed i 0 top 1)
  (received ≠ own ∧ S.hash received = S.hash own) ∨
    (prfStr (treeOn S idx i) ≠ prfStr 0 ∧ S.hash (prfStr (treeOn S idx i)) = S.hash (prfStr 0))

/-! ### Lemmas -/

/-- Not all digits of a value are `w - 1`: if all message digits are, the checksum is 0. -/
theorem exists_digit_lt (g : p.Good) (M : Bytes) :
    ∃ j < (suiteOf p H).len, ((suiteOf p H).wotsDigits M).getD j 0 < (suiteOf p H).w - 1 := by
  set S := suiteOf p H with hS
  have hw : 4 ≤ S.w := g.w_ge
  have hlen : S.len = S.len1 + S.len2 := rfl
  have h2 : 0 < S.len2 := Nat.succ_pos _
  have hl1 : (Rfc.digits S.w S.len1 (Rfc.toNat M)).length = S.len1 := by simp [Rfc.digits]
  by_contra hcon
  push Not at hcon
  have hall : ∀ x ∈ Rfc.digits S.w S.len1 (Rfc.toNat M), S.w - 1 ≤ x := by
    intro x hx
    obtain ⟨j, hj, rfl⟩ := List.getElem_of_mem hx
    have h := hcon j (by omega)
    rw [Rfc.Suite.wotsDigits, List.getD_append _ _ _ _ hj, List.getD_eq_getElem?_getD, List.getElem?_eq_getElem hj] at h
    exact h
  have hsum : ((Rfc.digits S.w S.len1 (Rfc.toNat M)).map fun x => S.w - 1 - x).sum = 0 := by
    revert hall
    generalize Rfc.digits S.w S.len1 (Rfc.toNat M) = l
    intro hall
    induction l with
    | nil => rfl
    | cons x l ih =>
      have h1 := hall x (by simp)
      have h2 := ih fun y hy => hall y (by simp [hy])
      rw [List.map_cons, List.sum_cons, h2]
      omega
  have h := hcon S.len1 (by omega)
  rw [Rfc.Suite.wotsDigits] at h
  simp only [hsum] at h
  rw [List.getD_append_right _ _ _ _ (by omega), hl1, Nat.sub_self] at h
  have : (Rfc.digits S.w S.len2 0).getD 0 0 = 0 := by simp [Rfc.digits, List.getD_eq_getElem?_getD, h2]
  omega

/-- If the received signature of layer `i` leads to the key's own WOTS public key and on chain `j` starts strictly before
position `b`, the chain is broken there. -/
theorem chain_break_at (S : Rfc.Suite) (k : Key) (idx : Nat) (body M : Bytes) (i j b : Nat)
    (hown : OwnWotsKey S k idx body M i) (hj : j < S.len) (hb : b < S.w)
    (hab : (S.wotsDigits (recvMsg S k.pubSeed idx body M i)).getD j 0 < b) :
    let adrs := Rfc.Suite.otsAdrs i (treeOn S idx i) (leafOn S idx i) j
    let a := (S.wotsDigits (recvMsg S k.pubSeed idx body M i)).getD j 0
    let x := S.chain k.pubSeed adrs ((recvSig S body i).getD j []) a (b - a)
    x = ownChain S k idx i j b ∨
      ∃ s, b + s < S.w - 1 ∧ S.chain k.pubSeed adrs x b s ≠ ownChain S k idx i j (b + s) ∧
        S.chainStep k.pubSeed adrs (b + s) (S.chain k.pubSeed adrs x b s) =
          S.chainStep k.pubSeed adrs (b + s) (ownChain S k idx i j (b + s)) := by
  intro adrs a x
  have h := congrArg (fun l => l.getD j []) hown
  simp only [recvPk] at h
  rw [wotsPkFromSig_getD _ _ _ _ _ _ _ _ hj] at h
  have hpk : (S.wotsPk k.skSeed k.pubSeed i (treeOn S idx i) (leafOn S idx i)).getD j [] = ownChain S k idx i j (S.w - 1) := by
    simp [Rfc.Suite.wotsPk, List.getD_eq_getElem?_getD, hj, ownChain]
  rw [hpk] at h
  have own_add : ∀ s, ownChain S k idx i j (b + s) = S.chain k.pubSeed adrs (ownChain S k idx i j b) b s := by
    intro s
    have e := chain_add S k.pubSeed adrs (S.wotsSk k.skSeed k.pubSeed i (treeOn S idx i) (leafOn S idx i) j) 0 b s
    rw [Nat.zero_add] at e
    exact e
  have e := chain_add S k.pubSeed adrs ((recvSig S body i).getD j []) a (b - a) (S.w - 1 - b)
  rw [show a + (b - a) = b by omega, show b - a + (S.w - 1 - b) = S.w - 1 - a by omega] at e
  have key : S.chain k.pubSeed adrs x b (S.w - 1 - b) = S.chain k.pubSeed adrs (ownChain S k idx i j b) b (S.w - 1 - b) := by
    rw [← own_add, show b + (S.w - 1 - b) = S.w - 1 by omega, ← h, ← e]
  rcases chain_merge S k.pubSeed adrs b _ _ _ key with h | ⟨s, hs, h1, h2⟩
  · exact Or.inl h
  · refine Or.inr ⟨s, by omega, ?_, ?_⟩
    · rw [own_add]; exact h1
    · rw [own_add]; exact h2

theorem recvMsg_length (g : p.Good) (hH : ∀ x, (H x).length = p.n) (seed : Bytes) (idx : Nat) (body M : Bytes)
    (hM : M.length = p.n) (i : Nat) : (recvMsg (suiteOf p H) seed idx body M i).length = p.n := by
  cases i with
  | zero => exact hM
  | succ i =>
    rw [recvMsg_succ]
    have hne : recvAuth (suiteOf p H) body i ≠ [] := by
      have : (recvAuth (suiteOf p H) body i).length = p.tree_height := by
        simp [recvAuth, Rfc.blocks, g.hp_eq H]
      intro hc
      rw [hc] at this
      have := g.th_pos
      simp at *
      omega
    have aux : ∀ (auth : List Bytes) (h l : Nat) (x : Bytes), auth ≠ [] →
        ((suiteOf p H).climb seed i (treeOn (suiteOf p H) idx i) h l x auth).length = p.n := by
      intro auth
      induction auth with
      | nil => intro _ _ _ h; exact absurd rfl h
      | cons a rest ih =>
        intro h l x _
        rw [Rfc.Suite.climb]
        cases rest with
        | nil =>
          rw [Rfc.Suite.climb]
          split <;> exact hH _
        | cons b rest => exact ih _ _ _ (by simp)
    exact aux _ _ _ _ hne

/-- The reduction behind C48, for one accepted signed message whose pair of R and message is not the one the history
has at its index. -/
theorem forgery_reduction (hp : f.parse oid = some p) (hH : coreHash P p.func p.n = some H) (k : Key) (hv : k.Valid p)
    (hh : k.Honest (suiteOf p H)) (cs : List Call) (sig msg m : Bytes) (l0 : Nat) (r : OpenOut)
    (hsig : sig.length = p.sig_bytes) (h64 : p.sig_bytes + msg.length < 2 ^ 64) (hm : p.sig_bytes + msg.length ≤ m.length)
    (hr : f.signOpen P m l0 (sig ++ msg) (p.sig_bytes + msg.length) (k.pk oid) = some r) (hacc : r.ret = 0)
    (hnew : ∀ c, cs[Rfc.toNat (sig.take p.index_bytes)]? = some c →
      ¬ ((sig.drop p.index_bytes).take p.n =
          (suiteOf p H).PRF k.skPrf (Rfc.toByte (Rfc.toNat (sig.take p.index_bytes)) 32) ∧ c.msg = msg)) :
    let S := suiteOf p H
    let idx := Rfc.toNat (sig.take p.index_bytes)
    let R := (sig.drop p.index_bytes).take p.n
    let body := sig.drop (p.index_bytes + p.n)
    let M := S.digest R k.root idx msg
    let msgs := cs.map (·.msg)
    (∃ i < p.d, TreePathCollision S k idx body M i ∨ LtreeCollision S k idx body M i ∨ ChainBreak S k msgs idx body M i) ∨
    DigestCollision S k msgs idx R msg ∨
    (2 ^ p.full_height ≤ idx ∧ RootCollision S k idx body M) := by
  obtain ⟨g, hskb, ho, _⟩ := Family.facts (P := P) hp
  have hHl := Family.hash_length hp hH
  intro S idx R body M msgs
  by_cases hidx : 2 ^ p.full_height ≤ idx
  · refine Or.inr (Or.inr ⟨hidx, ?_⟩)
    have h := C29_out_of_range_collision_partial hp hH k hv hh sig msg m l0 hsig h64 hm r hr hacc hidx
    have e1 : S.hp = p.tree_height := g.hp_eq H
    rw [RootCollision, e1]
    exact h
  have hidx : idx < 2 ^ p.full_height := by omega
  have hMl : M.length = p.n := hHl _
  have hd := g.d_pos
  rcases C28_acceptance_binds hp hH k hv hh sig msg m l0 hsig h64 hm r hr hacc hidx with
    ⟨i, hi, h⟩ | ⟨i, hi0, hi, hown, hne⟩ | ⟨hown, _⟩
  · exact Or.inl ⟨i, hi, h.elim Or.inl (fun h => Or.inr (Or.inl h))⟩
  · -- a WOTS forgery on an upper layer
    obtain ⟨i, rfl⟩ : ∃ i', i = i' + 1 := ⟨i - 1, by omega⟩
    simp only [Nat.add_sub_cancel] at hne
    refine Or.inl ⟨i + 1, hi, Or.inr (Or.inr ?_)⟩
    have l1 := recvMsg_length g hHl k.pubSeed idx body M hMl (i + 1)
    have l2 : (S.treeRoot k.skSeed k.pubSeed i (treeOn S idx i)).length = p.n := node_length g hHl _ _ _ _ _ _
    obtain ⟨j, hj, hlt⟩ := C07_checksum_partial p g _ _ l2 l1 (Ne.symm hne)
    rw [chainLengths_eq g H l1, chainLengths_eq g H l2] at hlt
    have hjS : j < S.len := by rw [show S.len = p.wots_len from g.len_eq' H]; exact hj
    have hb := wotsDigits_getD_lt S g.w_pos (S.treeRoot k.skSeed k.pubSeed i (treeOn S idx i)) j
    exact ⟨j, hjS, hlt, hb, chain_break_at S k idx body M (i + 1) j _ hown hjS hb hlt⟩
  · -- layer 0 used the key's own one-time key
    have h0 := hown 0 hd
    cases hc : cs[idx]? with
    | none =>
      refine Or.inl ⟨0, hd, Or.inr (Or.inr ?_)⟩
      obtain ⟨j, hj, hlt⟩ := exists_digit_lt (H := H) g M
      have hs0 : signedOn S k msgs idx 0 = none := by simp [signedOn, msgs, hc]
      have hw : 0 < S.w := g.w_pos
      refine ⟨j, hj, ?_⟩
      simp only [hs0, publicPos]
      exact ⟨hlt, by omega, chain_break_at S k idx body M 0 j _ h0 hj (by omega) hlt⟩
    | some c =>
      have hcm := hnew c hc
      have hms : msgs[idx]? = some c.msg := by simp [msgs, hc]
      set M' := S.digest (S.PRF k.skPrf (Rfc.toByte idx 32)) k.root idx c.msg with hM'
      have hM'l : M'.length = p.n := hHl _
      by_cases he : M' = M
      · refine Or.inr (Or.inl ⟨c.msg, hms, ?_, ?_⟩)
        · intro hx
          have hRl : R.length = p.n := by
            have := g.sig_eq'
            have : p.index_bytes + p.n ≤ p.sig_bytes := by rw [this]; omega
            simp only [R, List.length_take, List.length_drop]
            omega
          have hRl' : (S.PRF k.skPrf (Rfc.toByte idx 32)).length = p.n := hHl _
          rw [digestString, digestString] at hx
          have hx2 := List.append_inj hx (by simp [hRl, hRl', toByte_length])
          have hx3 := (List.append_inj hx2.1 (by simp)).2
          simp only [List.append_assoc] at hx3
          exact hcm ⟨(List.append_inj hx3 (by rw [hRl, hRl'])).1, hx2.2.symm⟩
        · exact he.symm
      · refine Or.inl ⟨0, hd, Or.inr (Or.inr ?_)⟩
        obtain ⟨j, hj, hlt⟩ := C07_checksum_partial p g _ _ hM'l hMl he
        rw [chainLengths_eq g H hM'l, chainLengths_eq g H hMl] at hlt
        have hjS : j < S.len := by rw [show S.len = p.wots_len from g.len_eq' H]; exact hj
        have hb := wotsDigits_getD_lt S g.w_pos M' j
        have hs0 : signedOn S k msgs idx 0 = some M' := by rw [signedOn, hms]; rfl
        refine ⟨j, hjS, ?_⟩
        simp only [hs0, publicPos]
        exact ⟨hlt, hb, chain_break_at S k idx body M 0 j _ h0 hjS hb hlt⟩

/-- **C48.**  Reduction for the whole scheme.  After key generation and any history of at most `2^h - 1` sign calls
(chosen messages `cs`), suppose open accepts some message under the public key with an index at which this message was not
signed in the history (in particular any message never signed).  Then the accepted bytes, the key and the history contain
one of the following, explicitly:
* a collision of the tree hash or of the L-tree hash on some layer;
* on some layer, a preimage of a published chain value or a collision of the chaining function;
* a collision of H_msg between the forged message and the message signed at this index;
* (only for an index outside the tree, which open does not reject, C29) a collision of the hash function at the root. -/
theorem C48_forgery_breaks_hash (hp : f.parse oid = some p) (hH : coreHash P p.func p.n = some H) (pk0 sk0 : Bytes)
    (hpk : pk0.length = 4 + p.pk_bytes) (hsk : sk0.length = 4 + p.sk_bytes) (seed : Nat → Bytes)
    (hs : (seed p.n).length = 3 * p.n) :
    ∃ k : Key, k.Valid p ∧ f.keypair P pk0 sk0 oid seed = some (0, k.pk oid, k.sk p oid 0) ∧
      ∀ cs, Sized p cs → cs.length ≤ 2 ^ p.full_height - 1 →
        (∃ outs, signAll P f (k.sk p oid 0) cs = some outs ∧ ∀ j c, cs[j]? = some c → ∃ o, outs[j]? = some o ∧ o.ret = 0 ∧
          o.sm = (suiteOf p H).sign k.skSeed k.skPrf k.root k.pubSeed j c.msg ++ c.msg) ∧
        ∀ (sig msg m : Bytes) (l0 : Nat) (r : OpenOut), sig.length = p.sig_bytes → p.sig_bytes + msg.length < 2 ^ 64 →
          p.sig_bytes + msg.length ≤ m.length →
          f.signOpen P m l0 (sig ++ msg) (p.sig_bytes + msg.length) (k.pk oid) = some r → r.ret = 0 →
          (∀ c, cs[Rfc.toNat (sig.take p.index_bytes)]? = some c → c.msg ≠ msg) →
          let S := suiteOf p H
          let idx := Rfc.toNat (sig.take p.index_bytes)
          let R := (sig.drop p.index_bytes).take p.n
          let body := sig.drop (p.index_bytes + p.n)
          let M := S.digest R k.root idx msg
          let msgs := cs.map (·.msg)
          (∃ i < p.d, TreePathCollision S k idx body M i ∨ LtreeCollision S k idx body M i ∨ ChainBreak S k msgs idx body M i) ∨
          DigestCollision S k msgs idx R msg ∨
          (2 ^ p.full_height ≤ idx ∧ RootCollision S k idx body M) := by
  obtain ⟨g, hskb, ho, _⟩ := Family.facts (P := P) hp
  have hHl := Family.hash_length hp hH
  obtain ⟨k, hv, hh, _, hk⟩ := keypair_key hp hH pk0 sk0 hpk hsk seed hs
  refine ⟨k, hv, hk, ?_⟩
  intro cs hcs hlen
  constructor
  · refine ⟨_, signAll_eq hp hH cs 0 k hv (by positivity) hcs, ?_⟩
    intro j c hc
    have hjl : j < cs.length := (List.getElem?_eq_some_iff.mp hc).1
    have hjlt : j < 2 ^ p.full_height - 1 := by omega
    refine ⟨outcome p H oid (j, k) c, ?_, ?_, ?_⟩
    · rw [List.getElem?_mapIdx, hc, Option.map_some, stateAfter_lt _ (by omega)]
    · simp only [outcome, if_pos (show j < 2 ^ p.full_height by omega)]
    · simp only [outcome, if_pos hjlt]
  intro sig msg m l0 r hsig h64 hm hr hacc hnew
  exact forgery_reduction hp hH k hv hh cs sig msg m l0 r hsig h64 hm hr hacc fun c hc h => hnew c hc h.2

/-- Non-vacuity of C48: someone who holds a copy of the secret key (a restored backup, say) makes such a forgery for every
index and every message: all hypotheses hold for the signature of a different message at an index used in the history. -/
theorem C48_met_by_key_copy (hp : f.parse oid = some p) (hH : coreHash P p.func p.n = some H) (k : Key) (hk : k.Valid p)
    (hh : k.Honest (suiteOf p H)) (cs : List Call) (hlen : cs.length ≤ 2 ^ p.full_height - 1) (idx : Nat) (c : Call)
    (hc : cs[idx]? = some c) (msg m : Bytes) (l0 : Nat) (hne : c.msg ≠ msg) (h64 : p.sig_bytes + msg.length < 2 ^ 64)
    (hm : p.sig_bytes + msg.length ≤ m.length) :
    ∃ sig r, sig.length = p.sig_bytes ∧
      f.signOpen P m l0 (sig ++ msg) (p.sig_bytes + msg.length) (k.pk oid) = some r ∧ r.ret = 0 ∧
      ∀ c, cs[Rfc.toNat (sig.take p.index_bytes)]? = some c → c.msg ≠ msg := by
  have hj : idx < cs.length := (List.getElem?_eq_some_iff.mp hc).1
  obtain ⟨sig, r, h1, h2, h3, h4⟩ := C28_honest_case hp hH k hk hh idx (by omega) msg m l0 h64 hm
  refine ⟨sig, r, h1, h2, h3, ?_⟩
  intro c' hc'
  rw [h4, hc] at hc'
  cases hc'
  exact hne

end Xmss
