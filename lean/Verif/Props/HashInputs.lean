import Verif.Proof.TraceInputsSign
import Verif.Props.HashCallsFast
/-
C76: what the owner of a key hashes over the life of the key (simple implementation).
-/
namespace Xmss
open Tr Inputs TI

variable {P : Prims} {f : Family} {oid : Nat} {p : Params} {H : Bytes → Bytes}

/-- The hash calls of a recorded computation: for every call the argument `inlen` and the bytes hashed, in order. -/
def inputsOf {α : Type} (t : TrG (Nat × Bytes) α) : Option (List (Nat × Bytes)) := Option.map Prod.snd t

/-- A history of sign calls, as `signAll`, with the record of the hash calls. -/
def signAllT {κ : Type} [Rec κ] (P : Prims) (f : Family) : Bytes → List Call → TrG κ (List SignOut)
  | _, [] => pure []
  | sk, c :: cs => do
    let o ← f.signT P sk c.sm c.smlen0 c.msg
    let os ← signAllT P f o.sk cs
    pure (o :: os)

/-- The life of a key: key generation and then sign calls, with the record of the hash calls. -/
def lifeT {κ : Type} [Rec κ] (P : Prims) (f : Family) (pk sk : Bytes) (oid : Nat) (seed : Nat → Bytes) (cs : List Call) :
    TrG κ (List SignOut) := do
  let r ← f.keypairT P pk sk oid seed
  signAllT P f r.2.2 cs

/-- **C76 (the recorded functions are the functions).**  For all arguments, also where the behaviour is undefined: forgetting the bytes
hashed gives the functions of C72 and C74, which record the lengths only. -/
theorem C76_same (P : Prims) (f : Family) :
    (∀ pk sk oid seed, lens (f.keypairT P pk sk oid seed) = f.keypairT P pk sk oid seed) ∧
    (∀ sk sm l0 m, lens (f.signT P sk sm l0 m) = f.signT P sk sm l0 m) ∧
    (∀ m l0 sm smlen pk, lens (f.signOpenT P m l0 sm smlen pk) = f.signOpenT P m l0 sm smlen pk) ∧
    (∀ pk sk oid seed, lens (f.keypairFastT P pk sk oid seed) = f.keypairFastT P pk sk oid seed) ∧
    (∀ sk sm l0 m, lens (f.signFastT P sk sm l0 m) = f.signFastT P sk sm l0 m) := by
  refine ⟨fun pk sk oid seed => ?_, fun sk sm l0 m => ?_, fun m l0 sm smlen pk => ?_, fun pk sk oid seed => ?_, fun sk sm l0 m => ?_⟩
  · rw [Family.keypairT, Family.keypairT]; exact Lens.apiKeypairT P f.parse pk sk oid seed
  · rw [Family.signT, Family.signT]; exact Lens.apiSignT P f.parse sk sm l0 m
  · rw [Family.signOpenT, Family.signOpenT]; exact Lens.apiOpenT P f.parse m l0 sm smlen pk
  · cases f with
    | xmss =>
      rw [Family.keypairFastT, Family.keypairFastT]
      exact Lens.apiKeypairFastT P _ (fun _ _ _ _ _ => Lens.fastXmssKeypairT _ _ _) pk sk oid seed
    | xmssmt =>
      rw [Family.keypairFastT, Family.keypairFastT]
      exact Lens.apiKeypairFastT P _ (fun _ _ _ _ _ => Lens.fastXmssmtKeypairT _ _ _) pk sk oid seed
  · cases f with
    | xmss =>
      rw [Family.signFastT, Family.signFastT]
      exact Lens.apiSignFastT P _ (fun _ _ _ _ _ _ => Lens.fastXmssSignT _ _ _ _) sk sm l0 m
    | xmssmt =>
      rw [Family.signFastT, Family.signFastT]
      exact Lens.apiSignFastT P _ (fun _ _ _ _ _ _ => Lens.fastXmssmtSignT _ _ _ _) sk sm l0 m

namespace HashInputs

/-- The value. -/
def valI {α : Type} (t : TrG (Nat × Bytes) α) : Option α := Option.map Prod.fst t

theorem val_lens {α : Type} (t : TrG (Nat × Bytes) α) : val (lens t) = valI t := by cases t <;> rfl

/-- As `C76_same`, the values. -/
theorem signT_value (sk sm : Bytes) (l0 : Nat) (m : Bytes) :
    valI (f.signT (κ := Nat × Bytes) P sk sm l0 m) = f.sign P sk sm l0 m := by
  rw [← val_lens, (C76_same P f).2.1]
  exact (C72_same P f).2.1 sk sm l0 m

theorem keypairT_value (pk sk : Bytes) (oid : Nat) (seed : Nat → Bytes) :
    valI (f.keypairT (κ := Nat × Bytes) P pk sk oid seed) = f.keypair P pk sk oid seed := by
  rw [← val_lens, (C76_same P f).1]
  exact (C72_same P f).1 pk sk oid seed

theorem map_bind {α β γ : Type} (g : α → γ → β) (t : TrG (Nat × Bytes) α) (u : α → TrG (Nat × Bytes) γ) :
    valI (t >>= fun a => u a >>= fun b => (pure (g a b) : TrG (Nat × Bytes) β)) =
      (valI t).bind fun a => (valI (u a)).bind fun b => some (g a b) := by
  cases t with
  | none => rfl
  | some r =>
    obtain ⟨a, l⟩ := r
    show valI (mk a l >>= _) = _
    rw [bind_mk]
    show _ = (valI (u a)).bind fun b => some (g a b)
    cases u a with
    | none => rfl
    | some r' => rfl

theorem signAllT_value : ∀ (cs : List Call) (sk : Bytes),
    valI (signAllT (κ := Nat × Bytes) P f sk cs) = signAll P f sk cs
  | [], _ => rfl
  | c :: cs, sk => by
    rw [signAllT, map_bind, signT_value, signAll]
    simp only [signAllT_value cs]
    rfl

theorem keypair_ht (hp : f.parse oid = some p) (hH : coreHash P p.func p.n = some H) (pk0 sk0 : Bytes) (seed : Nat → Bytes) :
    HT (TreeQ H p ((seed p.n).take p.n) (((seed p.n).drop (2 * p.n)).take p.n)) (f.keypairT P pk0 sk0 oid seed) (fun _ => True) := by
  obtain ⟨g, hskb, _, _⟩ := Family.facts (P := P) hp
  have hHl := Family.hash_length hp hH
  rw [Family.keypairT, apiKeypairT, hp]
  refine HT.optBind fun pk1 _ => HT.optBind fun sk1 _ => ?_
  rw [hH]
  refine HT.optBind fun _ e => ?_
  cases e
  exact HT.bind (coreSeedKeypair_ht g hHl) fun _ _ => HT.pure trivial

theorem sign_ht (hp : f.parse oid = some p) (hH : coreHash P p.func p.n = some H) {k : Key} (hk : k.Valid p) {idx : Nat}
    (hidx : idx < 256 ^ p.index_bytes) (sm : Bytes) (l0 : Nat) (m : Bytes) :
    HT (fun c => SignQ H p (usedKey p k idx).skSeed (usedKey p k idx).pubSeed (usedKey p k idx).skPrf (usedKey p k idx).root idx m c ∧
        idx < 2 ^ p.full_height) (f.signT P (k.sk p oid idx) sm l0 m) (fun _ => True) := by
  obtain ⟨g, hskb, ho, _⟩ := Family.facts (P := P) hp
  have hHl := Family.hash_length hp hH
  have t1 : ∀ x : Bytes, (Rfc.toByte oid 4 ++ x).drop oidLen = x := fun x => List.drop_left' (toByte_length _ _)
  rw [Family.signT, apiSignT, Key.sk, readOid_toByte (by omega)]
  refine HT.optBind fun _ e => ?_
  cases e
  rw [hp]
  show HT _ (Tr.opt (coreHash P p.func p.n) >>= _) _
  rw [hH]
  refine HT.optBind fun _ e => ?_
  cases e
  rw [t1]
  exact HT.bind (coreSign_ht g hskb hHl hk hidx) fun _ _ => HT.pure trivial

theorem signAll_ht (hp : f.parse oid = some p) (hH : coreHash P p.func p.n = some H) {k : Key} (hk : k.Valid p) :
    ∀ (cs : List Call) (idx : Nat), Sized p cs → idx + cs.length ≤ 2 ^ p.full_height - 1 →
      HT (fun c => ∃ j M, (cs.map Call.msg)[j]? = some M ∧ SignQ H p k.skSeed k.pubSeed k.skPrf k.root (idx + j) M c)
        (signAllT P f (k.sk p oid idx) cs) (fun _ => True)
  | [], _, _, _ => HT.pure trivial
  | c :: cs, idx, hs, hi => by
    obtain ⟨g, hskb, ho, _⟩ := Family.facts (P := P) hp
    simp only [List.length_cons] at hi
    have hlt : idx < 2 ^ p.full_height - 1 := by omega
    have hx : idx < 256 ^ p.index_bytes := by have := g.idx_fits; omega
    rw [signAllT]
    refine HT.bind (R := fun o => o.sk = k.sk p oid (idx + 1)) (HT.mono (HT.withVal (HT.weaken (sign_ht hp hH hk hx c.sm c.smlen0 c.msg) ?_)) ?_)
      fun o ho => ?_
    · intro x hx
      rw [usedKey, if_pos hlt] at hx
      exact ⟨0, c.msg, rfl, hx.1⟩
    · intro o ho
      have ho := ho.2
      rw [val_lens, signT_value, sign_call hp hH k hk idx hx _ _ _ (Nat.le_of_eq (hs c (by simp)).symm)] at ho
      rw [← Option.some.inj ho]
      simp only [nextKey, nextIdx, if_pos hlt]
    · rw [ho]
      refine HT.bind (HT.weaken (signAll_ht hp hH hk cs (idx + 1) (fun c hc => hs c (by simp [hc])) (by omega)) ?_)
        fun _ _ => HT.pure trivial
      rintro x ⟨j, M, hj, hx⟩
      exact ⟨j + 1, M, by simpa using hj, by rwa [show idx + (j + 1) = idx + 1 + j by omega]⟩

end HashInputs
open HashInputs

/-- **C76 (key generation).**  Every string hashed by key generation is one of those of RFC 8391 for the trees of the key, determined by
the place in the hypertree where it is hashed, and the length passed to the hash function is the length of that string. -/
theorem C76_keygen (hp : f.parse oid = some p) (hH : coreHash P p.func p.n = some H) (pk0 sk0 : Bytes) (seed : Nat → Bytes)
    (l : List (Nat × Bytes)) (hl : inputsOf (f.keypairT P pk0 sk0 oid seed) = some l) :
    ∀ c ∈ l, c.1 = c.2.length ∧ TreeCall (suiteOf p H) ((seed p.n).take p.n) (((seed p.n).drop (2 * p.n)).take p.n) c.2 := by
  cases h : f.keypairT (κ := Nat × Bytes) P pk0 sk0 oid seed with
  | none => rw [h] at hl; cases hl
  | some r =>
    rw [h] at hl
    cases hl
    exact (keypair_ht hp hH pk0 sk0 seed r.1 r.2 h).2

/-- **C76 (signing).**  Every string hashed by a sign call is one of those of RFC 8391 for the signature with the index in the key on the
message.  With the last index the key has been overwritten with zeros before (C25), so the strings are those of the zero key; with
larger indices nothing is hashed. -/
theorem C76_sign (hp : f.parse oid = some p) (hH : coreHash P p.func p.n = some H) (k : Key) (hk : k.Valid p) (idx : Nat)
    (hidx : idx < 256 ^ p.index_bytes) (sm : Bytes) (l0 : Nat) (m : Bytes) (l : List (Nat × Bytes))
    (hl : inputsOf (f.signT P (k.sk p oid idx) sm l0 m) = some l) :
    (idx < 2 ^ p.full_height - 1 →
      ∀ c ∈ l, c.1 = c.2.length ∧ SignCall (suiteOf p H) k.skSeed k.pubSeed k.skPrf k.root idx m c.2) ∧
    (idx = 2 ^ p.full_height - 1 →
      let z : Bytes := List.replicate p.n 0
      ∀ c ∈ l, c.1 = c.2.length ∧ SignCall (suiteOf p H) z z z z idx m c.2) ∧
    (2 ^ p.full_height ≤ idx → l = []) := by
  cases h : f.signT (κ := Nat × Bytes) P (k.sk p oid idx) sm l0 m with
  | none => rw [h] at hl; cases hl
  | some r =>
    rw [h] at hl
    cases hl
    have hq := (sign_ht hp hH hk hidx sm l0 m r.1 r.2 h).2
    refine ⟨fun hi c hc => ?_, fun hi c hc => ?_, fun hi => ?_⟩
    · have := (hq c hc).1
      rwa [usedKey, if_pos hi] at this
    · have := (hq c hc).1
      rwa [usedKey, if_neg (by omega)] at this
    · refine List.eq_nil_iff_forall_not_mem.mpr fun c hc => ?_
      have := (hq c hc).2
      omega

/-- **C76 (the life of a key).**  Key generation and then at most `2^h - 1` sign calls on messages `M_0, M_1, ...`: every string hashed is
one of those for the trees of the key, or the randomizer or message hash of the signature with number `j` on `M_j`. -/
theorem C76_life (hp : f.parse oid = some p) (hH : coreHash P p.func p.n = some H) (pk0 sk0 : Bytes)
    (hpk : pk0.length = 4 + p.pk_bytes) (hsk : sk0.length = 4 + p.sk_bytes) (seed : Nat → Bytes) (hs : (seed p.n).length = 3 * p.n)
    (cs : List Call) (hcs : Sized p cs) (hlen : cs.length ≤ 2 ^ p.full_height - 1) :
    ∃ (k : Key) (l : List (Nat × Bytes)), k.Valid p ∧ k.Honest (suiteOf p H) ∧ seed p.n = k.skSeed ++ k.skPrf ++ k.pubSeed ∧
      inputsOf (lifeT P f pk0 sk0 oid seed cs) = some l ∧
      ∀ c ∈ l, c.1 = c.2.length ∧ (TreeCall (suiteOf p H) k.skSeed k.pubSeed c.2 ∨
        ∃ j M, (cs.map Call.msg)[j]? = some M ∧ SignCall (suiteOf p H) k.skSeed k.pubSeed k.skPrf k.root j M c.2) := by
  obtain ⟨g, hskb, _, _⟩ := Family.facts (P := P) hp
  obtain ⟨k, hv, hh, hseed, hk⟩ := keypair_key hp hH pk0 sk0 hpk hsk seed hs
  have hv1 := keypairT_value (P := P) (f := f) pk0 sk0 oid seed
  rw [hk] at hv1
  cases h1 : f.keypairT (κ := Nat × Bytes) P pk0 sk0 oid seed with
  | none => rw [h1] at hv1; cases hv1
  | some r1 =>
    obtain ⟨a1, l1⟩ := r1
    rw [h1] at hv1
    cases hv1
    have hv2 := signAllT_value (P := P) (f := f) cs (k.sk p oid 0)
    rw [signAll_eq hp hH cs 0 k hv (by positivity) hcs] at hv2
    cases h2 : signAllT (κ := Nat × Bytes) P f (k.sk p oid 0) cs with
    | none => rw [h2] at hv2; cases hv2
    | some r2 =>
      obtain ⟨a2, l2⟩ := r2
      refine ⟨k, l1 ++ l2, hv, hh, hseed, ?_, ?_⟩
      · rw [lifeT, h1]
        show inputsOf (mk (0, k.pk oid, k.sk p oid 0) l1 >>= _) = _
        rw [bind_mk, h2]
        rfl
      · intro c hc
        rcases List.mem_append.mp hc with hc | hc
        · have := (keypair_ht hp hH pk0 sk0 seed _ _ h1).2 c hc
          have e1 : (seed p.n).take p.n = k.skSeed := by rw [hseed, List.append_assoc]; exact List.take_left' hv.skSeed
          have e2 : ((seed p.n).drop (2 * p.n)).take p.n = k.pubSeed := by
            rw [hseed, List.drop_left' (by rw [List.length_append, hv.skSeed, hv.skPrf]; omega)]
            exact List.take_of_length_le (by rw [hv.pubSeed])
          rw [e1, e2] at this
          exact ⟨this.1, Or.inl this.2⟩
        · obtain ⟨j, M, hj, hq⟩ := (signAll_ht hp hH hv cs 0 hcs (by omega) _ _ h2).2 c hc
          rw [Nat.zero_add] at hq
          exact ⟨hq.1, Or.inr ⟨j, M, hj, hq.2⟩⟩

/-! ### One input per key -/

namespace HashInputs

/-- A place with its coordinates, as in C10. -/
def toPlace : Spot → Nat → Place
  | .chain a b c d e, km => .chain a b c d e km
  | .ltree a b c d e, km => .ltree a b c d e km
  | .node a b c d, km => .node a b c d km

theorem toPlace_adrs (pl : Spot) (km : Nat) : addrToBytes ((toPlace pl km).addr Addr.zero) = pl.adrs km := by
  rw [C10_rfc_addresses]
  cases pl <;> rfl

theorem toPlace_inj {pl pl' : Spot} {km km' : Nat} (h : toPlace pl km = toPlace pl' km') : pl = pl' ∧ km = km' := by
  cases pl <;> cases pl' <;> simp [toPlace] at h ⊢ <;> omega

theorem row_height (S : Rfc.Suite) (skSeed seed : Bytes) (layer tree leaf : Nat) : ∀ h, 2 ≤ (row S skSeed seed layer tree leaf h).length →
    h + (row S skSeed seed layer tree leaf h).length ≤ S.len
  | 0, _ => by rw [row, wotsPk_len]; omega
  | h + 1, h2 => by
    have s1 := (ltreeRow_spec (fun i => S.randHash seed (Rfc.Suite.ltreeAdrs layer tree leaf h i)) 0 (row S skSeed seed layer tree leaf h)).1
    rw [row] at h2 ⊢
    have e : ∀ x : List Rfc.Bytes, x.length = ((row S skSeed seed layer tree leaf h).length + 1) / 2 → 2 ≤ x.length → h + 1 + x.length ≤ S.len := by
      intro x hx h2
      have := row_height S skSeed seed layer tree leaf h (by omega)
      omega
    exact e _ s1 h2

theorem inRange (g : p.Good) {skSeed seed : Bytes} {pl : Spot} (h : pl.In (suiteOf p H) skSeed seed) {km : Nat} (hk : km ≤ 2) :
    (toPlace pl km).InRange := by
  have hd : p.d < 2 ^ 32 := by
    have h1 := g.fh_lt
    have h2 : p.d ≤ p.tree_height * p.d := Nat.le_mul_of_pos_left _ g.th_pos
    have h3 := g.height
    omega
  have htr : ∀ {t e : Nat}, t < 2 ^ (p.full_height - e) → t < 2 ^ 64 := fun {t e} ht =>
    lt_of_lt_of_le ht (Nat.pow_le_pow_right (by omega) (by have := g.fh_lt; omega))
  have hth : 2 ^ p.tree_height ≤ 2 ^ 32 := Nat.pow_le_pow_right (by omega) (by have := g.th_lt; omega)
  have hlen : p.wots_len < 2 ^ 32 := by
    have h1 := g.sig_lt
    have h2 := g.sig_eq
    have h3 := g.sig_wots
    have h4 : p.wots_len ≤ p.wots_len * p.n := Nat.le_mul_of_pos_right _ g.n_pos
    have h5 : p.wots_sig_bytes ≤ p.d * p.wots_sig_bytes := Nat.le_mul_of_pos_left _ g.d_pos
    omega
  have hw := g.w_le
  cases pl with
  | chain a b c d e =>
    obtain ⟨h1, h2, h3, h4, h5⟩ := h
    rw [g.hp_eq] at h3
    rw [g.len_eq'] at h4
    exact ⟨lt_trans h1 hd, htr h2, lt_of_lt_of_le h3 hth, lt_trans h4 hlen, by have : (suiteOf p H).w = p.wots_w := rfl; omega, by omega⟩
  | ltree a b c d e =>
    obtain ⟨h1, h2, h3, h4⟩ := h
    rw [g.hp_eq] at h3
    have h5 := row_height (suiteOf p H) skSeed seed a b c d (by omega)
    rw [g.len_eq'] at h5
    exact ⟨lt_trans h1 hd, htr h2, lt_of_lt_of_le h3 hth, by omega, by omega, by omega⟩
  | node a b c d =>
    obtain ⟨h1, h2, h3, h4⟩ := h
    rw [g.hp_eq] at h3 h4
    have := g.th_lt
    have h6 : 2 ^ (p.tree_height - 1 - c) ≤ 2 ^ 32 := Nat.pow_le_pow_right (by omega) (by omega)
    exact ⟨lt_trans h1 hd, htr h2, by omega, by omega, by omega⟩

/-- Within one key, the address of a key or mask belongs to one place. -/
theorem adrs_inj (g : p.Good) {skSeed seed : Bytes} {pl pl' : Spot} (h : pl.In (suiteOf p H) skSeed seed)
    (h' : pl'.In (suiteOf p H) skSeed seed) {km km' : Nat} (hk : km ≤ 2) (hk' : km' ≤ 2) (e : pl.adrs km = pl'.adrs km') : pl = pl' ∧ km = km' := by
  rw [← toPlace_adrs, ← toPlace_adrs] at e
  exact toPlace_inj (C10_address_separation _ _ _ _ (inRange g h hk) (inRange g h' hk') e)

end HashInputs

/-- What C76 says of a string hashed in the life of a key (`C76_life`). -/
def OwnersString (S : Rfc.Suite) (k : Key) (Ms : List Bytes) (x : Bytes) : Prop :=
  TreeCall S k.skSeed k.pubSeed x ∨ ∃ j M, Ms[j]? = some M ∧ SignCall S k.skSeed k.pubSeed k.skPrf k.root j M x

namespace HashInputs

theorem toByte_role {r s k : Nat} (hk : 0 < k) (hr : r < 256) (hs : s < 256) (h : Rfc.toByte r k = Rfc.toByte s k) : r = s := by
  have : 256 ^ 1 ≤ 256 ^ k := Nat.pow_le_pow_right (by omega) hk
  exact toByte_inj (by omega) (by omega) h

theorem hash_of_role (hpad : 0 < p.padding_len) {k : Key} {Ms : List Bytes} {x : Bytes} {r : Nat} (hr : r ≤ 1)
    (h : OwnersString (suiteOf p H) k Ms x) (hx : x.take p.padding_len = Rfc.toByte r p.padding_len) :
    ∃ pl : Spot, pl.In (suiteOf p H) k.skSeed k.pubSeed ∧ pl.role = r ∧ x = pl.input (suiteOf p H) k.skSeed k.pubSeed := by
  have hp : ∀ (s : Nat) (y : Bytes), x = Rfc.toByte s p.padding_len ++ y → s < 256 → s = r := by
    intro s y e hs
    rw [e, List.take_left' (toByte_length _ _)] at hx
    exact toByte_role hpad hs (by omega) hx
  have tree : ∀ x, TreeCall (suiteOf p H) k.skSeed k.pubSeed x → (∀ (s : Nat) (y : Bytes), x = Rfc.toByte s p.padding_len ++ y → s < 256 → s = r) →
      ∃ pl : Spot, pl.In (suiteOf p H) k.skSeed k.pubSeed ∧ pl.role = r ∧ x = pl.input (suiteOf p H) k.skSeed k.pubSeed := by
    intro x hx hp
    cases hx with
    | secret a b c d h =>
      have := hp 4 _ (List.append_assoc ..) (by omega)
      omega
    | randomizer pl h km hk =>
      have := hp 3 _ (List.append_assoc ..) (by omega)
      omega
    | hash pl h =>
      refine ⟨pl, h, ?_, rfl⟩
      refine hp pl.role _ (List.append_assoc ..) ?_
      cases pl <;> simp [Spot.role]
  rcases h with h | ⟨j, M, hj, h⟩
  · exact tree x h hp
  · cases h with
    | randomizer =>
      have := hp 3 _ (List.append_assoc ..) (by omega)
      omega
    | message =>
      have := hp 2 _ (List.append_assoc ..) (by omega)
      omega
    | tree h => exact tree x h hp

end HashInputs

namespace HashInputs

theorem one_input_good (g : p.Good) (hHl : ∀ x, (H x).length = p.n) (hpad : 0 < p.padding_len) (k : Key) (Ms : List Bytes)
    (r : Nat) (hr : r = 0 ∨ r = 1) (x y : Bytes) (hx : OwnersString (suiteOf p H) k Ms x) (hy : OwnersString (suiteOf p H) k Ms y)
    (hx0 : x.take p.padding_len = Rfc.toByte r p.padding_len) (hy0 : y.take p.padding_len = Rfc.toByte r p.padding_len)
    (hxy : (x.drop p.padding_len).take p.n = (y.drop p.padding_len).take p.n) :
    x = y ∨ ∃ a b : Bytes, a.length = 32 ∧ b.length = 32 ∧ a ≠ b ∧
      H (Rfc.toByte 3 p.padding_len ++ k.pubSeed ++ a) = H (Rfc.toByte 3 p.padding_len ++ k.pubSeed ++ b) := by
  obtain ⟨pl, hin, hrole, rfl⟩ := hash_of_role hpad (by omega) hx hx0
  obtain ⟨pl', hin', hrole', rfl⟩ := hash_of_role hpad (by omega) hy hy0
  have key : ∀ q : Spot, ((q.input (suiteOf p H) k.skSeed k.pubSeed).drop p.padding_len).take p.n = (suiteOf p H).PRF k.pubSeed (q.adrs 0) := by
    intro q
    rw [Spot.input, List.append_assoc, List.drop_left' (by exact toByte_length _ _)]
    exact List.take_left' (hHl _)
  rw [key, key] at hxy
  by_cases e : pl.adrs 0 = pl'.adrs 0
  · left
    rw [(adrs_inj g hin hin' (by omega) (by omega) e).1]
  · right
    exact ⟨_, _, adrs_length pl 0, adrs_length pl' 0, e, hxy⟩

theorem one_input (hp : f.parse oid = some p) (hH : coreHash P p.func p.n = some H) (k : Key) (Ms : List Bytes)
    (r : Nat) (hr : r = 0 ∨ r = 1) (x y : Bytes) (hx : OwnersString (suiteOf p H) k Ms x) (hy : OwnersString (suiteOf p H) k Ms y)
    (hx0 : x.take p.padding_len = Rfc.toByte r p.padding_len) (hy0 : y.take p.padding_len = Rfc.toByte r p.padding_len)
    (hxy : (x.drop p.padding_len).take p.n = (y.drop p.padding_len).take p.n) :
    x = y ∨ ∃ a b : Bytes, a.length = 32 ∧ b.length = 32 ∧ a ≠ b ∧
      H (Rfc.toByte 3 p.padding_len ++ k.pubSeed ++ a) = H (Rfc.toByte 3 p.padding_len ++ k.pubSeed ++ b) := by
  obtain ⟨g, _, _, _⟩ := Family.facts (P := P) hp
  have hHl := Family.hash_length hp hH
  have hpad : 0 < p.padding_len := by
    have : 4 ≤ p.padding_len := by
      cases f with
      | xmss => exact C11_padding _ oid p (Or.inl hp)
      | xmssmt => exact C11_padding _ oid p (Or.inr hp)
    omega
  exact one_input_good g hHl hpad k Ms r hr x y hx hy hx0 hy0 hxy

end HashInputs

/-- **C76 (one input per key).**  Two strings hashed in the life of a key (key generation and at most `2^h - 1` sign calls) that both start
with the prefix of F, or both with that of H, and go on with the same `n`-byte key are equal; otherwise the hash function has a collision
on two PRF inputs of this key, which differ in the 32 bytes of the address. -/
theorem C76_one_input (hp : f.parse oid = some p) (hH : coreHash P p.func p.n = some H) (pk0 sk0 : Bytes)
    (hpk : pk0.length = 4 + p.pk_bytes) (hsk : sk0.length = 4 + p.sk_bytes) (seed : Nat → Bytes) (hs : (seed p.n).length = 3 * p.n)
    (cs : List Call) (hcs : Sized p cs) (hlen : cs.length ≤ 2 ^ p.full_height - 1) :
    ∃ l, inputsOf (lifeT P f pk0 sk0 oid seed cs) = some l ∧ ∀ r, r = 0 ∨ r = 1 → ∀ c ∈ l, ∀ c' ∈ l,
      c.2.take p.padding_len = Rfc.toByte r p.padding_len → c'.2.take p.padding_len = Rfc.toByte r p.padding_len →
      (c.2.drop p.padding_len).take p.n = (c'.2.drop p.padding_len).take p.n →
      c = c' ∨ ∃ a b : Bytes, a.length = 32 ∧ b.length = 32 ∧ a ≠ b ∧
        H (Rfc.toByte 3 p.padding_len ++ (seed p.n).drop (2 * p.n) ++ a) = H (Rfc.toByte 3 p.padding_len ++ (seed p.n).drop (2 * p.n) ++ b) := by
  obtain ⟨k, l, hv, _, hseed, hl, hq⟩ := C76_life hp hH pk0 sk0 hpk hsk seed hs cs hcs hlen
  refine ⟨l, hl, fun r hr c hc c' hc' h0 h0' hk => ?_⟩
  have e : (seed p.n).drop (2 * p.n) = k.pubSeed := by
    rw [hseed, List.drop_left' (by rw [List.length_append, hv.skSeed, hv.skPrf]; omega)]
  rw [e]
  rcases one_input hp hH k (cs.map Call.msg) r hr c.2 c'.2 (hq c hc).2 (hq c' hc').2 h0 h0' hk with h | h
  · left
    exact Prod.ext (by rw [(hq c hc).1, (hq c' hc').1, h]) h
  · exact Or.inr h

/-- The hypotheses of `C76_life` and `C76_one_input` are met by a key of XMSS-SHA2_10_256 and two messages. -/
example (P : Prims) : ∃ p H, Family.xmss.parse 1 = some p ∧ coreHash P p.func p.n = some H ∧
    Sized p [⟨List.replicate (p.sig_bytes + 3) 0, 0, [1, 2, 3]⟩, ⟨List.replicate p.sig_bytes 7, 0, []⟩] ∧ 2 ≤ 2 ^ p.full_height - 1 := by
  obtain ⟨p, hp, he⟩ : ∃ p, Family.xmss.parse 1 = some p ∧ p.full_height = 10 := by
    refine ⟨_, rfl, ?_⟩
    decide +kernel
  obtain ⟨H, hH, _⟩ := C12_core_hash P _ 1 p (Or.inl hp)
  refine ⟨p, H, hp, hH, ?_, by rw [he]; omega⟩
  intro c hc
  simp only [List.mem_cons, List.not_mem_nil, or_false] at hc
  rcases hc with rfl | rfl <;> simp

end Xmss
