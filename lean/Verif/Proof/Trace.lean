import Verif.Model.Trace
import Verif.Proof.Verify
import Verif.Spec.Calls
/-
Every function of Model/Trace computes what the function of the same name without record computes, and the record of
its calls of the hash function has an explicit shape.
-/
namespace Xmss

namespace Tr
variable {κ α β : Type}

/-- The computation with value `a` and record `l`. -/
def mk (a : α) (l : List κ) : TrG κ α := (some (a, l) : Option (α × List κ))
/-- The undefined computation. -/
def fail : TrG κ α := (none : Option (α × List κ))
/-- `l` recorded before `t`. -/
def tell (l : List κ) : TrG κ α → TrG κ α
  | none => none
  | some (a, l') => some (a, l ++ l')
/-- The computation with the value of `o`, when there is one, and record `l`. -/
def lift (l : List κ) (o : Option α) : TrG κ α := (o.map fun a => (a, l) : Option (α × List κ))

theorem pure_eq (a : α) : (pure a : TrG κ α) = mk a [] := rfl
theorem opt_none : Tr.opt (none : Option α) = (fail : TrG κ α) := rfl
theorem opt_some (a : α) : Tr.opt (some a) = (mk a [] : TrG κ α) := rfl
theorem lift_none (l : List κ) : lift l (none : Option α) = fail := rfl
theorem lift_some (l : List κ) (a : α) : lift l (some a) = mk a l := rfl
theorem bind_fail (f : α → TrG κ β) : ((fail : TrG κ α) >>= f) = fail := rfl
theorem bind_mk (a : α) (l : List κ) (f : α → TrG κ β) : (mk a l >>= f) = tell l (f a) := by
  show (match f a with | none => none | some (b, l') => some (b, l ++ l')) = tell l (f a)
  generalize f a = t
  cases t <;> rfl
theorem tell_fail (l : List κ) : tell l (fail : TrG κ α) = fail := rfl
theorem tell_mk (l : List κ) (a : α) (l' : List κ) : tell l (mk a l') = mk a (l ++ l') := rfl
theorem tell_mk_nil (l : List κ) (a : α) : tell l (mk a []) = mk a l := by rw [tell_mk, List.append_nil]
theorem app_nil (l : List Nat) : l ++ [] = l := List.append_nil l
theorem nil_app (l : List Nat) : [] ++ l = l := rfl
theorem tell_nil (t : TrG κ α) : tell [] t = t := by cases t <;> rfl
theorem tell_tell (l l' : List κ) (t : TrG κ α) : tell l (tell l' t) = tell (l ++ l') t := by
  cases t with
  | none => rfl
  | some r => exact congrArg some (congrArg (Prod.mk r.1) (List.append_assoc l l' r.2).symm)
theorem tell_lift (l l' : List κ) (o : Option α) : tell l (lift l' o) = lift (l ++ l') o := by cases o <;> rfl
end Tr

open Tr

/-- Everything needed to compute with records. -/
macro "trsimp" : tactic => `(tactic| simp only [Tr.pure_eq, Tr.opt_none, Tr.opt_some, Tr.lift_none, Tr.lift_some, Tr.bind_fail,
  Tr.bind_mk, Tr.tell_fail, Tr.tell_mk_nil, Tr.tell_mk, Tr.tell_nil, Tr.tell_tell, Tr.tell_lift, Tr.app_nil, Tr.nil_app])

variable {H : Bytes → Bytes} {p : Params}

theorem coreHashT_eq (k : Nat) (x : Bytes) : coreHashT H k x = mk (H x) [k] := rfl

/-! ### The shapes of the records -/

open Calls (rep)

theorem rep_zero (l : List Nat) : rep 0 l = [] := rfl
theorem rep_succ (k : Nat) (l : List Nat) : rep (k + 1) l = l ++ rep k l := by simp [rep, List.replicate_succ]
theorem rep_add (a b : Nat) (l : List Nat) : rep (a + b) l = rep a l ++ rep b l := by
  simp only [rep, List.replicate_add, List.flatten_append]
theorem rep_length (k : Nat) (l : List Nat) : (rep k l).length = k * l.length := by simp [rep]
theorem rep_mem {k : Nat} {l : List Nat} {x : Nat} (h : x ∈ rep k l) : x ∈ l := by
  simp only [rep, List.mem_flatten, List.mem_replicate] at h
  obtain ⟨y, ⟨_, hy⟩, hx⟩ := h
  exact hy ▸ hx

theorem calls_gen (p : Params) : Calls.gen p = [p.padding_len + 2 * p.n + 32] := by
  simp only [Calls.gen, List.cons.injEq, and_true]; ring
theorem calls_f (p : Params) : Calls.f p = Calls.prf p ++ (Calls.prf p ++ [p.padding_len + 2 * p.n]) := by
  simp only [Calls.f, List.append_assoc, List.append_cancel_left_eq, List.cons.injEq, and_true]; ring
theorem calls_h (p : Params) :
    Calls.h p = Calls.prf p ++ (Calls.prf p ++ (Calls.prf p ++ [p.padding_len + 3 * p.n])) := by
  simp only [Calls.h, List.append_assoc, List.append_cancel_left_eq, List.cons.injEq, and_true]; ring
theorem calls_msg (p : Params) (mlen : Nat) : Calls.msg p mlen = [mlen + p.padding_len + 3 * p.n] := by
  simp only [Calls.msg, List.cons.injEq, and_true]; ring

theorem prfT_eq (inp key : Bytes) : prfT H p inp key = mk (prf H p inp key) (Calls.prf p) := rfl
theorem prfKeygenT_eq (inp key : Bytes) : prfKeygenT H p inp key = mk (prfKeygen H p inp key) (Calls.gen p) := by
  rw [calls_gen]; rfl

theorem thashHT_eq (inp pubSeed : Bytes) (a : Addr) : thashHT H p inp pubSeed a = mk (thashH H p inp pubSeed a) (Calls.h p) := by
  rw [calls_h]
  simp only [thashHT, prfT_eq, coreHashT_eq]
  trsimp
  rfl

theorem thashFT_eq (inp pubSeed : Bytes) (a : Addr) : thashFT H p inp pubSeed a = mk (thashF H p inp pubSeed a) (Calls.f p) := by
  rw [calls_f]
  simp only [thashFT, prfT_eq, coreHashT_eq]
  trsimp
  rfl

theorem hashMessageT_eq (R root : Bytes) (idx : Nat) (buf : Bytes) (off mlen : Nat) :
    hashMessageT H p R root idx buf off mlen =
      lift (Calls.msg p mlen) (hashMessage H p R root idx buf off mlen) := by
  rw [calls_msg]
  simp only [hashMessageT, hashMessage, coreHashT_eq, Option.bind_eq_bind]
  cases wr buf off (ullToBytes p.padding_len padHash) with
  | none => rfl
  | some b1 =>
    trsimp; simp only [Option.bind_some]
    cases wr b1 (off + p.padding_len) R with
    | none => rfl
    | some b2 =>
      trsimp; simp only [Option.bind_some]
      cases wr b2 (off + p.padding_len + p.n) root with
      | none => rfl
      | some b3 =>
        trsimp; simp only [Option.bind_some]
        cases wr b3 (off + p.padding_len + 2 * p.n) (ullToBytes p.n idx) with
        | none => rfl
        | some b4 =>
          trsimp; simp only [Option.bind_some]
          cases rd b4 off (mlen + p.padding_len + 3 * p.n) with
          | none => rfl
          | some inp => rfl

/-! ### WOTS -/

theorem expandSeedLoopT_eq (inseed pubSeed : Bytes) : ∀ (k i : Nat) (a : Addr),
    expandSeedLoopT H p inseed pubSeed k i a = mk (expandSeedLoop H p inseed pubSeed k i a) (rep k (Calls.gen p))
  | 0, _, _ => rfl
  | k + 1, i, a => by
    simp only [expandSeedLoopT, expandSeedLoop, prfKeygenT_eq, expandSeedLoopT_eq inseed pubSeed k]
    trsimp
    rw [rep_succ]

theorem expandSeedT_eq (inseed pubSeed : Bytes) (a : Addr) :
    expandSeedT H p inseed pubSeed a = mk (expandSeed H p inseed pubSeed a) (rep p.wots_len (Calls.gen p)) := by
  simp only [expandSeedT, expandSeed, expandSeedLoopT_eq]

theorem genChainLoopT_eq (pubSeed : Bytes) : ∀ (k i : Nat) (x : Bytes) (a : Addr),
    genChainLoopT H p pubSeed k i x a = mk (genChainLoop H p pubSeed k i x a) (rep k (Calls.f p))
  | 0, _, _, _ => rfl
  | k + 1, i, x, a => by
    simp only [genChainLoopT, genChainLoop, thashFT_eq]
    trsimp
    simp only [genChainLoopT_eq pubSeed k]
    trsimp
    rw [rep_succ]

theorem genChainT_eq (x : Bytes) (start steps : Nat) (pubSeed : Bytes) (a : Addr) :
    genChainT H p x start steps pubSeed a =
      mk (genChain H p x start steps pubSeed a) (rep (min (start + steps) p.wots_w - start) (Calls.f p)) := by
  simp only [genChainT, genChain, genChainLoopT_eq]

/-- Number of calls of `thash_f` for the chains of a list. -/
def chainCalls (p : Params) (l : List (Bytes × Nat × Nat)) : Nat :=
  (l.map fun x => min (x.2.1 + x.2.2) p.wots_w - x.2.1).sum

theorem chainsLoopT_eq (pubSeed : Bytes) : ∀ (l : List (Bytes × Nat × Nat)) (i : Nat) (a : Addr),
    chainsLoopT H p pubSeed i l a = mk (chainsLoop H p pubSeed i l a) (rep (chainCalls p l) (Calls.f p))
  | [], _, _ => rfl
  | (x, s, t) :: l, i, a => by
    simp only [chainsLoopT, chainsLoop, genChainT_eq]
    trsimp
    simp only [chainsLoopT_eq pubSeed l]
    trsimp
    rw [← rep_add]
    rfl

theorem expandSeedLoop_length (inseed pubSeed : Bytes) : ∀ (k i : Nat) (a : Addr),
    (expandSeedLoop H p inseed pubSeed k i a).1.length = k
  | 0, _, _ => rfl
  | k + 1, i, a => by simp [expandSeedLoop, expandSeedLoop_length inseed pubSeed k]

theorem expandSeed_length (inseed pubSeed : Bytes) (a : Addr) : (expandSeed H p inseed pubSeed a).1.length = p.wots_len :=
  expandSeedLoop_length _ _ _ _ _

theorem wotsPkgenT_eq (seed pubSeed : Bytes) (a : Addr) :
    wotsPkgenT H p seed pubSeed a =
      mk (wotsPkgen H p seed pubSeed a) (rep p.wots_len (Calls.gen p) ++ rep (p.wots_len * (p.wots_w - 1)) (Calls.f p)) := by
  simp only [wotsPkgenT, wotsPkgen, expandSeedT_eq]
  trsimp
  simp only [chainsLoopT_eq]
  trsimp
  have h : chainCalls p ((expandSeed H p seed pubSeed a).1.map fun x => (x, 0, p.wots_w - 1)) = p.wots_len * (p.wots_w - 1) := by
    simp only [chainCalls, List.map_map, Function.comp_def, Nat.zero_add, Nat.sub_zero]
    rw [List.map_const', List.sum_replicate_nat, expandSeed_length]
    congr 1
    omega
  rw [h]

theorem zip_calls_sign (p : Params) : ∀ (xs : List Bytes) (ls : List Nat), xs.length = ls.length → (∀ l ∈ ls, l < p.wots_w) →
    chainCalls p (List.zipWith (fun x l => (x, 0, l)) xs ls) = ls.sum
  | [], [], _, _ => rfl
  | [], _ :: _, h, _ => by simp at h
  | _ :: _, [], h, _ => by simp at h
  | x :: xs, l :: ls, h, hl => by
    have := zip_calls_sign p xs ls (by simpa using h) (fun l' h' => hl l' (by simp [h']))
    simp only [chainCalls] at this
    have hlt := hl l (by simp)
    simp only [chainCalls, List.zipWith_cons_cons, List.map_cons, List.sum_cons, this, Nat.zero_add, Nat.sub_zero]
    omega

theorem zip_calls_verify (p : Params) : ∀ (xs : List Bytes) (ls : List Nat), xs.length = ls.length → (∀ l ∈ ls, l < p.wots_w) →
    chainCalls p (List.zipWith (fun x l => (x, l, p.wots_w - 1 - l)) xs ls) = (ls.map fun l => p.wots_w - 1 - l).sum
  | [], [], _, _ => rfl
  | [], _ :: _, h, _ => by simp at h
  | _ :: _, [], h, _ => by simp at h
  | x :: xs, l :: ls, h, hl => by
    have := zip_calls_verify p xs ls (by simpa using h) (fun l' h' => hl l' (by simp [h']))
    simp only [chainCalls] at this
    have hlt := hl l (by simp)
    simp only [chainCalls, List.zipWith_cons_cons, List.map_cons, List.sum_cons, this]
    omega

theorem wotsSignT_eq (g : p.Good) {msg : Bytes} (hm : msg.length = p.n) (seed pubSeed : Bytes) (a : Addr) :
    wotsSignT H p msg seed pubSeed a = mk (wotsSign H p msg seed pubSeed a)
      (rep p.wots_len (Calls.gen p) ++ rep ((suiteOf p H).wotsDigits msg).sum (Calls.f p)) := by
  simp only [wotsSignT, wotsSign, expandSeedT_eq]
  trsimp
  simp only [chainsLoopT_eq]
  trsimp
  rw [chainLengths_eq g H hm, zip_calls_sign p _ _ (by rw [expandSeed_length, wotsDigits_length, g.len_eq'])
    (fun l hl => wotsDigits_lt (suiteOf p H) g.w_pos msg hl)]

theorem wotsPkFromSigT_eq (g : p.Good) {msg : Bytes} (hm : msg.length = p.n) {sig : List Bytes} (hs : sig.length = p.wots_len)
    (pubSeed : Bytes) (a : Addr) :
    wotsPkFromSigT H p sig msg pubSeed a = mk (wotsPkFromSig H p sig msg pubSeed a)
      (rep (((suiteOf p H).wotsDigits msg).map fun l => (suiteOf p H).w - 1 - l).sum (Calls.f p)) := by
  simp only [wotsPkFromSigT, wotsPkFromSig, chainsLoopT_eq]
  rw [chainLengths_eq g H hm, zip_calls_verify p _ _ (by rw [hs, wotsDigits_length, g.len_eq'])
    (fun l hl => wotsDigits_lt (suiteOf p H) g.w_pos msg hl)]
  rfl

/-! ### Trees -/

theorem ltreeRowT_eq (pubSeed : Bytes) : ∀ (k i : Nat) (nodes : List Bytes) (a : Addr),
    ltreeRowT H p pubSeed k i nodes a = mk (ltreeRow H p pubSeed k i nodes a) (rep k (Calls.h p))
  | 0, _, _, _ => rfl
  | k + 1, i, nodes, a => by
    simp only [ltreeRowT, ltreeRow, thashHT_eq]
    trsimp
    simp only [ltreeRowT_eq pubSeed k]
    trsimp
    rw [rep_succ]

theorem ltreeLoopT_eq (pubSeed : Bytes) : ∀ (fuel l height : Nat) (nodes : List Bytes) (a : Addr), l ≤ fuel →
    ltreeLoopT H p pubSeed fuel l height nodes a = mk (ltreeLoop H p pubSeed fuel l height nodes a) (rep (l - 1) (Calls.h p))
  | 0, l, _, _, _, h => by
    have : l = 0 := by omega
    subst this; rfl
  | fuel + 1, l, height, nodes, a, h => by
    rw [ltreeLoopT, ltreeLoop]
    by_cases h1 : l ≤ 1
    · rw [if_pos h1, if_pos h1, show l - 1 = 0 by omega]; rfl
    · rw [if_neg h1, if_neg h1, ltreeRowT_eq]
      trsimp
      rw [ltreeLoopT_eq pubSeed fuel]
      · trsimp
        rw [← rep_add]
        congr 2
        rw [Nat.shiftRight_eq_div_pow, pow_one]
        have ha := Nat.and_one_is_mod l
        split_ifs with h2 <;> simp only [] <;> omega
      · rw [Nat.shiftRight_eq_div_pow, pow_one]
        have ha := Nat.and_one_is_mod l
        split_ifs with h2 <;> simp only [] <;> omega

theorem lTreeT_eq (pk : List Bytes) (pubSeed : Bytes) (a : Addr) :
    lTreeT H p pk pubSeed a = mk (lTree H p pk pubSeed a) (rep (p.wots_len - 1) (Calls.h p)) := by
  simp only [lTreeT, lTree, ltreeLoopT_eq pubSeed p.wots_len p.wots_len 0 _ _ le_rfl]
  trsimp

theorem computeRootLoopT_eq (pubSeed : Bytes) : ∀ (auth : List Bytes) (i leafidx : Nat) (b : Bytes) (a : Addr),
    computeRootLoopT H p pubSeed i leafidx auth b a =
      mk (computeRootLoop H p pubSeed i leafidx auth b a) (rep (auth.length + 1) (Calls.h p))
  | [], i, leafidx, b, a => by
    simp only [computeRootLoopT, computeRootLoop, thashHT_eq, List.length_nil, rep_succ, rep_zero, List.append_nil]
  | x :: auth, i, leafidx, b, a => by
    simp only [computeRootLoopT, computeRootLoop, thashHT_eq]
    trsimp
    simp only [computeRootLoopT_eq pubSeed auth]
    trsimp
    rw [List.length_cons, rep_succ (auth.length + 1)]

theorem computeRootT_eq (leaf : Bytes) (leafidx : Nat) (auth : List Bytes) (pubSeed : Bytes) (a : Addr) :
    computeRootT H p leaf leafidx auth pubSeed a = lift (rep auth.length (Calls.h p)) (computeRoot H p leaf leafidx auth pubSeed a) := by
  cases auth with
  | nil => rfl
  | cons x rest => simp only [computeRootT, computeRoot, computeRootLoopT_eq, List.length_cons]; rfl

theorem genLeafWotsT_eq (skSeed pubSeed : Bytes) (l o : Addr) :
    genLeafWotsT H p skSeed pubSeed l o = mk (genLeafWots H p skSeed pubSeed l o) (Calls.leaf p) := by
  simp only [genLeafWotsT, genLeafWots, wotsPkgenT_eq]
  trsimp
  simp only [lTreeT_eq]
  trsimp
  rfl

/-- The merges after a push, on the heights of the stack (top first). -/
def mergeHeights : Nat → List Nat → List Nat
  | h, [] => [h]
  | h, h2 :: rest => if h = h2 then mergeHeights (h + 1) rest else h :: h2 :: rest

/-- Their number. -/
def mergeCount : Nat → List Nat → Nat
  | _, [] => 0
  | h, h2 :: rest => if h = h2 then mergeCount (h + 1) rest + 1 else 0

theorem treehashMerge_heights (pubSeed : Bytes) (leafIdx idx : Nat) : ∀ (s : List (Bytes × Nat)) (x : Bytes) (h : Nat)
    (auth : List Bytes) (a : Addr) (r : List (Bytes × Nat) × List Bytes × Addr),
    treehashMerge H p pubSeed leafIdx idx x h s auth a = some r → r.1.map Prod.snd = mergeHeights h (s.map Prod.snd)
  | [], x, h, auth, a, r, e => by
    simp only [treehashMerge, Option.some.injEq] at e
    subst e; rfl
  | (x2, h2) :: s, x, h, auth, a, r, e => by
    simp only [treehashMerge] at e
    simp only [List.map_cons, mergeHeights]
    by_cases hh : h = h2
    · rw [if_pos hh] at e
      rw [if_pos hh]
      simp only [Option.bind_eq_bind, Option.bind_eq_some_iff] at e
      obtain ⟨auth', _, e⟩ := e
      exact treehashMerge_heights pubSeed leafIdx idx s _ _ _ _ _ e
    · rw [if_neg hh] at e
      rw [if_neg hh]
      simp only [Option.some.injEq] at e
      subst e; rfl

theorem treehashMergeT_eq (pubSeed : Bytes) (leafIdx idx : Nat) : ∀ (s : List (Bytes × Nat)) (x : Bytes) (h : Nat)
    (auth : List Bytes) (a : Addr),
    treehashMergeT H p pubSeed leafIdx idx x h s auth a =
      lift (rep (mergeCount h (s.map Prod.snd)) (Calls.h p)) (treehashMerge H p pubSeed leafIdx idx x h s auth a)
  | [], x, h, auth, a => rfl
  | (x2, h2) :: s, x, h, auth, a => by
    simp only [treehashMergeT, treehashMerge, List.map_cons, mergeCount]
    by_cases hh : h = h2
    · rw [if_pos hh, if_pos hh, if_pos hh, thashHT_eq]
      trsimp
      generalize (if (leafIdx >>> (h + 1)) ^^^ 1 = idx >>> (h + 1) then
        setAuth auth (h + 1) (thashH H p (x2 ++ x) pubSeed (setTreeIndex (setTreeHeight a h) (idx >>> (h + 1)))).1 else some auth) = o
      cases o with
      | none => rfl
      | some auth' =>
        trsimp
        rw [treehashMergeT_eq pubSeed leafIdx idx s]
        trsimp
        rw [rep_succ]
        rfl
    · rw [if_neg hh, if_neg hh, if_neg hh]; rfl

/-- Calls of the loop of `treehash` over `k` leaves from a stack with these heights. -/
def shLoop (p : Params) : Nat → List Nat → List Nat
  | 0, _ => []
  | k + 1, hs => Calls.leaf p ++ rep (mergeCount 0 hs) (Calls.h p) ++ shLoop p k (mergeHeights 0 hs)

theorem treehashLoopT_eq (skSeed pubSeed : Bytes) (leafIdx : Nat) : ∀ (k idx : Nat) (s : List (Bytes × Nat)) (auth : List Bytes)
    (o l nd : Addr),
    treehashLoopT H p skSeed pubSeed leafIdx k idx s auth o l nd =
      lift (shLoop p k (s.map Prod.snd)) (treehashLoop H p skSeed pubSeed leafIdx k idx s auth o l nd)
  | 0, _, _, _, _, _, _ => rfl
  | k + 1, idx, s, auth, o, l, nd => by
    simp only [treehashLoopT, treehashLoop, genLeafWotsT_eq]
    trsimp
    by_cases hf : p.tree_height + 1 ≤ s.length
    · rw [if_pos hf, if_pos hf]; rfl
    · rw [if_neg hf, if_neg hf]
      generalize (if leafIdx ^^^ 1 = idx then
        setAuth auth 0 (genLeafWots H p skSeed pubSeed (setLtreeAddr l idx) (setOtsAddr o idx)).1 else some auth) = ao
      cases ao with
      | none => rfl
      | some auth' =>
        trsimp
        rw [treehashMergeT_eq]
        simp only [Option.bind_eq_bind, Option.bind_some]
        cases hr : treehashMerge H p pubSeed leafIdx idx
          (genLeafWots H p skSeed pubSeed (setLtreeAddr l idx) (setOtsAddr o idx)).1 0 s auth' nd with
        | none => rfl
        | some r =>
          trsimp
          rw [treehashLoopT_eq skSeed pubSeed leafIdx k]
          trsimp
          rw [treehashMerge_heights pubSeed leafIdx idx _ _ _ _ _ _ hr, shLoop]
          rfl

theorem shLoop_tree (p : Params) : ∀ (k m : Nat) (hs : List Nat), (∀ x ∈ hs, k ≤ x) →
    shLoop p (2 ^ k + m) hs = Calls.tree p k ++ rep (mergeCount k hs) (Calls.h p) ++ shLoop p m (mergeHeights k hs)
  | 0, m, hs, _ => by rw [pow_zero, Nat.add_comm 1 m, shLoop]; rfl
  | k + 1, m, hs, h => by
    have e : 2 ^ (k + 1) + m = 2 ^ k + (2 ^ k + m) := by rw [pow_succ]; omega
    have hc : mergeCount k hs = 0 ∧ mergeHeights k hs = k :: hs := by
      cases hs with
      | nil => exact ⟨rfl, rfl⟩
      | cons x hs =>
        have hx := h x (by simp)
        have hne : k ≠ x := by omega
        simp [mergeCount, mergeHeights, hne]
    rw [e, shLoop_tree p k _ hs (fun x hx => by have := h x hx; omega), hc.1, hc.2,
      shLoop_tree p k m (k :: hs) (fun x hx => by
        rcases List.mem_cons.1 hx with rfl | hx
        · exact le_rfl
        · have := h x hx; omega)]
    simp only [mergeCount, mergeHeights, if_true, rep_zero, List.append_nil, rep_succ, Calls.tree, List.append_assoc]

theorem shLoop_full (p : Params) (k : Nat) : shLoop p (2 ^ k) [] = Calls.tree p k := by
  have := shLoop_tree p k 0 [] (by simp)
  simpa [mergeCount, mergeHeights, shLoop, rep_zero] using this

theorem treehashT_eq (skSeed pubSeed : Bytes) (leafIdx : Nat) (sub : Addr) (auth0 : List Bytes) :
    treehashT H p skSeed pubSeed leafIdx sub auth0 =
      lift (Calls.tree p p.tree_height) (treehash H p skSeed pubSeed leafIdx sub auth0) := by
  simp only [treehashT, treehash, treehashLoopT_eq, List.map_nil, shLoop_full]
  generalize treehashLoop H p skSeed pubSeed leafIdx (2 ^ p.tree_height) 0 [] auth0 _ _ _ = o
  cases o with
  | none => rfl
  | some r =>
    trsimp
    simp only [Option.bind_eq_bind, Option.bind_some]
    cases r.1.getLast? with
    | none => rfl
    | some top => trsimp

/-! ### The layers -/

/-- The digests that the layers of a signature sign. -/
def signDigests (S : Rfc.Suite) (sk seed : Bytes) : Nat → Nat → Nat → Bytes → List Bytes
  | 0, _, _, _ => []
  | k + 1, layer, idx, M => M :: signDigests S sk seed k (layer + 1) (idx / 2 ^ S.hp) (S.treeRoot sk seed layer (idx / 2 ^ S.hp))

theorem signLayersT_eq (g : p.Good) (hH : ∀ x, (H x).length = p.n) (skSeed pubSeed : Bytes) :
    ∀ (k i idx : Nat) (a : Addr) (M pre mid post : Bytes), a.a3 = UInt32.ofNat 0 → M.length = p.n →
      mid.length = k * ((p.wots_len + p.tree_height) * p.n) →
      signLayersT H p skSeed pubSeed k i idx a M (pre ++ mid ++ post) pre.length =
        mk (pre ++ (suiteOf p H).signLayers skSeed pubSeed k i idx M ++ post)
          ((signDigests (suiteOf p H) skSeed pubSeed k i idx M).map (Calls.signLayer p (suiteOf p H))).flatten := by
  intro k
  induction k with
  | zero =>
    intro i idx a M pre mid post _ _ hmid
    have : mid = [] := List.eq_nil_of_length_eq_zero (by simpa using hmid)
    subst this
    rfl
  | succ k ih =>
    intro i idx a M pre mid post ha hM hmid
    rw [signLayersT, leafOf_eq g]
    trsimp
    simp only [Nat.shiftRight_eq_div_pow]
    set lf := idx % 2 ^ p.tree_height with hlf
    set tr := idx / 2 ^ p.tree_height with htr
    have hlt : lf < 2 ^ p.tree_height := Nat.mod_lt _ (Nat.two_pow_pos _)
    obtain ⟨w1, w2⟩ := wotsSign_eq (H := H) g (layer := i) (tree := tr) (ots := lf) skSeed pubSeed hM
      (setOtsAddr (setTreeAddr (setLayerAddr a i) tr) lf) ⟨rfl, rfl, rfl, ha, rfl⟩
    have hwl := wotsSig_flat_length g hH skSeed pubSeed M i tr lf
    have hal := authPath_flat_length g hH skSeed pubSeed i tr lf
    rw [wotsSignT_eq g hM]
    trsimp
    rw [w1]
    -- split the target area
    set B := (p.wots_len + p.tree_height) * p.n with hB
    have hBe : B = p.wots_len * p.n + p.tree_height * p.n := by rw [hB]; ring
    have hmid' : mid.length = B + k * B := by rw [hmid]; ring
    obtain ⟨m1, m2, m3, hm, h1, h2, h3⟩ : ∃ m1 m2 m3 : Bytes, mid = m1 ++ m2 ++ m3 ∧ m1.length = p.wots_len * p.n ∧
        m2.length = p.tree_height * p.n ∧ m3.length = k * B := by
      refine ⟨_, _, _, split3 mid (p.wots_len * p.n) (p.tree_height * p.n), ?_, ?_, ?_⟩ <;> simp <;> omega
    subst hm
    have e1 : pre ++ (m1 ++ m2 ++ m3) ++ post = pre ++ m1 ++ (m2 ++ m3 ++ post) := by simp
    rw [e1, wr_append pre m1 (m2 ++ m3 ++ post) _ rfl (by rw [hwl, h1])]
    trsimp
    set W := ((suiteOf p H).wotsSig skSeed pubSeed M i tr lf).flatten with hW
    set A := ((suiteOf p H).authPath skSeed pubSeed i tr lf).flatten with hA
    have e2 : pre ++ W ++ (m2 ++ m3 ++ post) = (pre ++ W) ++ m2 ++ (m3 ++ post) := by simp
    have hoff : pre.length + p.wots_sig_bytes = (pre ++ W).length := by rw [g.sig_wots]; simp [hwl]
    rw [hoff, e2, rd_append (pre ++ W) m2 (m3 ++ post) rfl h2.symm]
    trsimp
    rw [treehashT_eq, treehash_eq g hH skSeed pubSeed hlt _ _ w2.h0 w2.h1 w2.h2 (chunks_length _ _ _)]
    trsimp
    rw [wr_append (pre ++ W) m2 (m3 ++ post) _ rfl (by rw [hal, h2])]
    trsimp
    have e3 : pre ++ W ++ A ++ (m3 ++ post) = (pre ++ W ++ A) ++ m3 ++ post := by simp
    have hoff2 : (pre ++ W).length + p.tree_height * p.n = (pre ++ W ++ A).length := by simp [hal]; omega
    rw [hoff2, e3, ih (i + 1) tr _ _ (pre ++ W ++ A) m3 post w2.h3 (treeRoot_length g hH _ _ _ _) h3]
    trsimp
    simp only [Rfc.Suite.signLayers, g.hp_eq, List.append_assoc, signDigests, List.map_cons, List.flatten_cons, Calls.signLayer]
    rfl

theorem openLayersT_eq (g : p.Good) (hH : ∀ x, (H x).length = p.n) (pubSeed : Bytes) :
    ∀ (k i idx : Nat) (oa la na : Addr) (M pre sig post : Bytes), oa.a3 = UInt32.ofNat 0 → la.a3 = UInt32.ofNat 1 →
      na.a3 = UInt32.ofNat 2 → na.a4 = UInt32.ofNat 0 → M.length = p.n →
      sig.length = k * ((p.wots_len + p.tree_height) * p.n) →
      openLayersT H p pubSeed (pre ++ sig ++ post) k i idx oa la na M pre.length =
        mk ((suiteOf p H).verifyLayers pubSeed k i idx M sig)
          ((Calls.layerDigests (suiteOf p H) pubSeed k i idx M sig).map (Calls.verifyLayer p (suiteOf p H))).flatten ∧
      ((suiteOf p H).verifyLayers pubSeed k i idx M sig).length = p.n := by
  intro k
  induction k with
  | zero =>
    intro i idx oa la na M pre sig post _ _ _ _ hM _
    exact ⟨rfl, hM⟩
  | succ k ih =>
    intro i idx oa la na M pre sig post ho hl hn hn4 hM hsig
    rw [openLayersT, leafOf_eq g]
    trsimp
    simp only [Nat.shiftRight_eq_div_pow]
    set lf := idx % 2 ^ p.tree_height with hlf
    set tr := idx / 2 ^ p.tree_height with htr
    set B := (p.wots_len + p.tree_height) * p.n with hB
    have hBe : B = p.wots_len * p.n + p.tree_height * p.n := by rw [hB]; ring
    have hsig' : sig.length = B + k * B := by rw [hsig]; ring
    obtain ⟨m1, m2, m3, hm, h1, h2, h3⟩ : ∃ m1 m2 m3 : Bytes, sig = m1 ++ m2 ++ m3 ∧ m1.length = p.wots_len * p.n ∧
        m2.length = p.tree_height * p.n ∧ m3.length = k * B := by
      refine ⟨_, _, _, split3 sig (p.wots_len * p.n) (p.tree_height * p.n), ?_, ?_, ?_⟩ <;> simp <;> omega
    subst hm
    have e1 : pre ++ (m1 ++ m2 ++ m3) ++ post = pre ++ m1 ++ (m2 ++ m3 ++ post) := by simp
    have e2 : pre ++ (m1 ++ m2 ++ m3) ++ post = (pre ++ m1) ++ m2 ++ (m3 ++ post) := by simp
    have e3 : pre ++ (m1 ++ m2 ++ m3) ++ post = (pre ++ m1 ++ m2) ++ m3 ++ post := by simp
    have r1 : rd (pre ++ (m1 ++ m2 ++ m3) ++ post) pre.length (p.wots_len * p.n) = some m1 := by
      rw [e1]; exact rd_append _ _ _ rfl h1.symm
    have r2 : rd (pre ++ (m1 ++ m2 ++ m3) ++ post) (pre.length + p.wots_sig_bytes) (p.tree_height * p.n) = some m2 := by
      rw [e2]; exact rd_append _ _ _ (by rw [g.sig_wots]; simp [h1]) h2.symm
    rw [r1, r2]
    trsimp
    obtain ⟨w1, w2⟩ := wotsPkFromSig_eq (H := H) g (layer := i) (tree := tr) (ots := lf) pubSeed hM
      (sig := chunks p.n p.wots_len m1) (chunks_length _ _ _)
      (setOtsAddr (setTreeAddr (setLayerAddr oa i) tr) lf) ⟨rfl, rfl, rfl, ho, rfl⟩
    rw [wotsPkFromSigT_eq g hM (chunks_length _ _ _)]
    trsimp
    rw [w1, lTreeT_eq]
    trsimp
    have hSlen : (suiteOf p H).len = p.wots_len := g.len_eq' H
    obtain ⟨l1, l2, l3⟩ := lTree_eq g hH (layer := i) (tree := tr) (lt := lf) pubSeed
      (nodes := (suiteOf p H).wotsPkFromSig pubSeed M (chunks p.n p.wots_len m1) i tr lf)
      (setLtreeAddr (setTreeAddr (setLayerAddr la i) tr) lf) ⟨rfl, rfl, rfl, hl, rfl⟩
      (by rw [wotsPkFromSig_len, hSlen])
      (wotsPkFromSig_mem_len (suiteOf p H) hH pubSeed M (by rw [chunks_length, hSlen]) (chunks_mem_length h1) i tr lf)
    have hthp := g.th_pos
    obtain ⟨nd', c1, c2, c3⟩ := computeRoot_eq (H := H) (p := p) hH (layer := i) (tree := tr) pubSeed
      (auth := chunks p.n p.tree_height m2) lf
      (x := (lTree H p ((suiteOf p H).wotsPkFromSig pubSeed M (chunks p.n p.wots_len m1) i tr lf) pubSeed
        (setLtreeAddr (setTreeAddr (setLayerAddr la i) tr) lf)).1)
      (setTreeAddr (setLayerAddr na i) tr) ⟨rfl, rfl, rfl, hn, hn4⟩
      (by intro h; have := congrArg List.length h; rw [chunks_length] at this; simp at this; omega) l2
      (chunks_mem_length h2)
    rw [computeRootT_eq, c1]
    trsimp
    have hoff : pre.length + p.wots_sig_bytes + p.tree_height * p.n = (pre ++ m1 ++ m2).length := by
      rw [g.sig_wots]; simp [h1, h2]; omega
    rw [hoff, e3]
    obtain ⟨v1, v2⟩ := ih (i + 1) tr (wotsPkFromSig H p (chunks p.n p.wots_len m1) M pubSeed
      (setOtsAddr (setTreeAddr (setLayerAddr oa i) tr) lf)).2 (lTree H p
        ((suiteOf p H).wotsPkFromSig pubSeed M (chunks p.n p.wots_len m1) i tr lf) pubSeed
        (setLtreeAddr (setTreeAddr (setLayerAddr la i) tr) lf)).2 nd'
      ((suiteOf p H).climb pubSeed i tr 0 lf (lTree H p ((suiteOf p H).wotsPkFromSig pubSeed M
        (chunks p.n p.wots_len m1) i tr lf) pubSeed (setLtreeAddr (setTreeAddr (setLayerAddr la i) tr) lf)).1
        (chunks p.n p.tree_height m2))
      (pre ++ m1 ++ m2) m3 post w2.h3 l3.h3 c2.h3 c2.h4 c3 h3
    -- the spec's step
    have hspec : (suiteOf p H).verifyLayers pubSeed (k + 1) i idx M (m1 ++ m2 ++ m3) =
        (suiteOf p H).verifyLayers pubSeed k (i + 1) tr
          ((suiteOf p H).climb pubSeed i tr 0 lf (lTree H p ((suiteOf p H).wotsPkFromSig pubSeed M
            (chunks p.n p.wots_len m1) i tr lf) pubSeed (setLtreeAddr (setTreeAddr (setLayerAddr la i) tr) lf)).1
            (chunks p.n p.tree_height m2)) m3 ∧
        Calls.layerDigests (suiteOf p H) pubSeed (k + 1) i idx M (m1 ++ m2 ++ m3) =
        M :: Calls.layerDigests (suiteOf p H) pubSeed k (i + 1) tr
          ((suiteOf p H).climb pubSeed i tr 0 lf (lTree H p ((suiteOf p H).wotsPkFromSig pubSeed M
            (chunks p.n p.wots_len m1) i tr lf) pubSeed (setLtreeAddr (setTreeAddr (setLayerAddr la i) tr) lf)).1
            (chunks p.n p.tree_height m2)) m3 := by
      rw [Rfc.Suite.verifyLayers, Calls.layerDigests]
      simp only [g.hp_eq, hSlen, Rfc.Suite.rootFromSig]
      have hn' : (suiteOf p H).n = p.n := rfl
      rw [hn']
      have b1 : Rfc.blocks p.n p.wots_len (m1 ++ m2 ++ m3) = chunks p.n p.wots_len m1 := by
        rw [chunks_eq_blocks]
        apply List.map_congr_left
        intro j hj
        have hj := List.mem_range.mp hj
        have hle : (j + 1) * p.n ≤ p.wots_len * p.n := Nat.mul_le_mul_right _ hj
        rw [Nat.add_mul, one_mul] at hle
        rw [List.append_assoc, List.drop_append_of_le_length (by omega),
          List.take_append_of_le_length (by simp; omega)]
      have b2 : Rfc.blocks p.n p.tree_height ((m1 ++ m2 ++ m3).drop (p.wots_len * p.n)) =
          chunks p.n p.tree_height m2 := by
        rw [List.append_assoc, List.drop_append_of_le_length (by omega),
          List.drop_of_length_le (by omega), List.nil_append, chunks_eq_blocks]
        apply List.map_congr_left
        intro j hj
        have hj := List.mem_range.mp hj
        have hle : (j + 1) * p.n ≤ p.tree_height * p.n := Nat.mul_le_mul_right _ hj
        rw [Nat.add_mul, one_mul] at hle
        rw [List.drop_append_of_le_length (by omega), List.take_append_of_le_length (by simp; omega)]
      have b3 : (m1 ++ m2 ++ m3).drop ((p.wots_len + p.tree_height) * p.n) = m3 := by
        rw [List.drop_append_of_le_length (by simp; omega), List.drop_of_length_le (by simp; omega),
          List.nil_append]
      rw [b1, b2, b3, l1]
      exact ⟨rfl, rfl⟩
    rw [hspec.1, hspec.2, v1]
    trsimp
    simp only [List.map_cons, List.flatten_cons, Calls.verifyLayer, chunks_length, List.append_assoc]
    exact ⟨trivial, v2⟩

/-! ### xmssmt_core_sign, xmssmt_core_seed_keypair, xmssmt_core_sign_open -/

theorem coreSignBodyT_eq (g : p.Good) (hH : ∀ x, (H x).length = p.n) (ib skSeed skPrf root pubSeed rest sm0 m post : Bytes)
    (idx : Nat) (hib : ib.length = p.index_bytes) (h1 : skSeed.length = p.n) (h2 : skPrf.length = p.n)
    (h3 : root.length = p.n) (h4 : pubSeed.length = p.n) (hsm : sm0.length = p.sig_bytes) :
    coreSignBodyT H p (ib ++ skSeed ++ skPrf ++ root ++ pubSeed ++ rest) (sm0 ++ m ++ post) m.length idx =
      mk   { ret := 0
             sk := Rfc.toByte (idx + 1) p.index_bytes ++ skSeed ++ skPrf ++ root ++ pubSeed ++ rest
             sm := ib ++ ((suiteOf p H).sign skSeed skPrf root pubSeed idx m).drop p.index_bytes ++ m ++ post
             smlen := p.sig_bytes + m.length }
        (Calls.sign p (suiteOf p H) m.length (signDigests (suiteOf p H) skSeed pubSeed p.d 0 idx
          ((suiteOf p H).digest ((suiteOf p H).PRF skPrf (Rfc.toByte idx 32)) root idx m))) := by
  have hfit := g.prefix_fits
  rw [coreSignBodyT]
  have e1 : ib ++ skSeed ++ skPrf ++ root ++ pubSeed ++ rest =
      [] ++ ib ++ (skSeed ++ skPrf ++ root ++ pubSeed ++ rest) := by simp
  rw [e1, rd_append [] ib _ (off := 0) rfl hib.symm]
  trsimp
  -- split sm0
  obtain ⟨a, b, c, d, rfl, ha, hb, hc, hd⟩ : ∃ a b c d : Bytes, sm0 = a ++ b ++ c ++ d ∧ a.length = p.index_bytes ∧
      b.length = p.n ∧ c.length = p.sig_bytes - (p.index_bytes + p.n) - (p.padding_len + 3 * p.n) ∧
      d.length = p.padding_len + 3 * p.n := by
    refine ⟨sm0.take p.index_bytes, (sm0.drop p.index_bytes).take p.n,
      (sm0.drop (p.index_bytes + p.n)).take (p.sig_bytes - (p.index_bytes + p.n) - (p.padding_len + 3 * p.n)),
      sm0.drop (p.index_bytes + p.n + (p.sig_bytes - (p.index_bytes + p.n) - (p.padding_len + 3 * p.n))),
      ?_, ?_, ?_, ?_, ?_⟩
    · conv_lhs => rw [split3 sm0 (p.index_bytes + p.n)
        (p.sig_bytes - (p.index_bytes + p.n) - (p.padding_len + 3 * p.n))]
      rw [List.take_add]
    all_goals simp; omega
  have s1 : a ++ b ++ c ++ d ++ m ++ post = [] ++ a ++ (b ++ c ++ d ++ m ++ post) := by simp
  rw [s1, wr_append [] a _ ib (off := 0) rfl (by omega)]
  trsimp
  rw [wr_append [] ib _ _ (off := 0) rfl (by rw [ullToBytes_length, hib]), ullToBytes_eq]
  trsimp
  set I := Rfc.toByte (idx + 1) p.index_bytes with hI
  have hIl : I.length = p.index_bytes := toByte_length _ _
  have k1 : [] ++ I ++ (skSeed ++ skPrf ++ root ++ pubSeed ++ rest) =
      I ++ skSeed ++ (skPrf ++ root ++ pubSeed ++ rest) := by simp
  have k2 : [] ++ I ++ (skSeed ++ skPrf ++ root ++ pubSeed ++ rest) =
      (I ++ skSeed) ++ skPrf ++ (root ++ pubSeed ++ rest) := by simp
  have k3 : [] ++ I ++ (skSeed ++ skPrf ++ root ++ pubSeed ++ rest) =
      (I ++ skSeed ++ skPrf) ++ root ++ (pubSeed ++ rest) := by simp
  have k4 : [] ++ I ++ (skSeed ++ skPrf ++ root ++ pubSeed ++ rest) =
      (I ++ skSeed ++ skPrf ++ root) ++ pubSeed ++ rest := by simp
  have r1 : rd ([] ++ I ++ (skSeed ++ skPrf ++ root ++ pubSeed ++ rest)) p.index_bytes p.n = some skSeed := by
    rw [k1]; exact rd_append _ _ _ hIl.symm h1.symm
  have r2 : rd ([] ++ I ++ (skSeed ++ skPrf ++ root ++ pubSeed ++ rest)) (p.index_bytes + p.n) p.n = some skPrf := by
    rw [k2]; exact rd_append _ _ _ (by simp [hIl, h1]) h2.symm
  have r3 : rd ([] ++ I ++ (skSeed ++ skPrf ++ root ++ pubSeed ++ rest)) (p.index_bytes + 2 * p.n) p.n = some root := by
    rw [k3]; exact rd_append _ _ _ (by simp [hIl, h1, h2]; omega) h3.symm
  have r4 : rd ([] ++ I ++ (skSeed ++ skPrf ++ root ++ pubSeed ++ rest)) (p.index_bytes + 3 * p.n) p.n =
      some pubSeed := by
    rw [k4]; exact rd_append _ _ _ (by simp [hIl, h1, h2, h3]; omega) h4.symm
  rw [r1, r2, r3, r4]
  trsimp
  rw [prfT_eq]
  trsimp
  rw [prf_eq, ullToBytes_eq]
  set R := (suiteOf p H).PRF skPrf (Rfc.toByte idx 32) with hR
  have hRl : R.length = p.n := hH _
  have s2 : [] ++ ib ++ (b ++ c ++ d ++ m ++ post) = ib ++ b ++ (c ++ d ++ m ++ post) := by simp
  rw [s2, wr_append ib b _ R hib.symm (by omega)]
  trsimp
  rw [rd_append ib R _ hib.symm hRl.symm]
  trsimp
  rw [if_neg (by omega)]
  have s3 : ib ++ R ++ (c ++ d ++ m ++ post) = (ib ++ R ++ c) ++ d ++ m ++ post := by simp
  rw [s3, hashMessageT_eq, hashMessage_eq R root hRl h3 idx (ib ++ R ++ c) d m post hd
    (by simp only [List.length_append]; omega) rfl]
  trsimp
  set D := Rfc.toByte 2 p.padding_len ++ R ++ root ++ Rfc.toByte idx p.n with hD
  have hDl : D.length = p.padding_len + 3 * p.n := by simp [hD, toByte_length, hRl, h3]; omega
  have s4 : ib ++ R ++ c ++ D ++ m ++ post = (ib ++ R) ++ (c ++ D) ++ (m ++ post) := by simp
  have hoff : p.index_bytes + p.n = (ib ++ R).length := by simp [hib, hRl]
  rw [s4, hoff, signLayersT_eq g hH skSeed pubSeed p.d 0 idx _ ((suiteOf p H).digest R root idx m) (ib ++ R) (c ++ D) (m ++ post) rfl (hH _)
    (by have := g.sig_eq'; simp only [List.length_append]; omega)]
  trsimp
  rw [Calls.sign, List.append_assoc]
  congr 1
  simp only [SignOut.mk.injEq, true_and, and_true]
  constructor
  · simp
  · simp only [Rfc.Suite.sign]
    rw [List.append_assoc (Rfc.toByte idx _), List.drop_append_of_le_length
      (by rw [toByte_length]; exact Nat.le_refl _), List.drop_of_length_le (by rw [toByte_length]; exact Nat.le_refl _)]
    simp only [List.nil_append, List.append_assoc]
    rfl

theorem coreSignT_eq (g : p.Good) (hsk : p.sk_bytes = p.index_bytes + 4 * p.n) (hH : ∀ x, (H x).length = p.n)
    (ib skSeed skPrf root pubSeed sm0 m old post : Bytes)
    (hib : ib.length = p.index_bytes) (h1 : skSeed.length = p.n) (h2 : skPrf.length = p.n)
    (h3 : root.length = p.n) (h4 : pubSeed.length = p.n) (hsm : sm0.length = p.sig_bytes) (hold : old.length = m.length) :
    coreSignT H p (ib ++ skSeed ++ skPrf ++ root ++ pubSeed) (sm0 ++ old ++ post) m =
      mk (if Rfc.toNat ib < 2 ^ p.full_height - 1 then
        { ret := 0
          sk := Rfc.toByte (Rfc.toNat ib + 1) p.index_bytes ++ skSeed ++ skPrf ++ root ++ pubSeed
          sm := (suiteOf p H).sign skSeed skPrf root pubSeed (Rfc.toNat ib) m ++ m ++ post
          smlen := p.sig_bytes + m.length }
      else if Rfc.toNat ib = 2 ^ p.full_height - 1 then
        let z : Bytes := List.replicate p.n 0
        { ret := 0
          sk := Rfc.toByte (Rfc.toNat ib + 1) p.index_bytes ++ z ++ z ++ z ++ z
          sm := List.replicate p.index_bytes 0xFF ++
            ((suiteOf p H).sign z z z z (2 ^ p.full_height - 1) m).drop p.index_bytes ++ m ++ post
          smlen := p.sig_bytes + m.length }
      else
        { ret := -2
          sk := List.replicate p.index_bytes 0xFF ++ List.replicate (4 * p.n) 0
          sm := sm0 ++ m ++ post
          smlen := p.sig_bytes + m.length })
      (if Rfc.toNat ib < 2 ^ p.full_height - 1 then
        Calls.sign p (suiteOf p H) m.length (signDigests (suiteOf p H) skSeed pubSeed p.d 0 (Rfc.toNat ib)
          ((suiteOf p H).digest ((suiteOf p H).PRF skPrf (Rfc.toByte (Rfc.toNat ib) 32)) root (Rfc.toNat ib) m))
      else if Rfc.toNat ib = 2 ^ p.full_height - 1 then
        let z : Bytes := List.replicate p.n 0
        Calls.sign p (suiteOf p H) m.length (signDigests (suiteOf p H) z z p.d 0 (2 ^ p.full_height - 1)
          ((suiteOf p H).digest ((suiteOf p H).PRF z (Rfc.toByte (2 ^ p.full_height - 1) 32)) z (2 ^ p.full_height - 1) m))
      else []) := by
  have hfh := g.fh_lt
  rw [coreSignT, wr_append sm0 old post m hsm.symm hold.symm]
  trsimp
  have e1 : ib ++ skSeed ++ skPrf ++ root ++ pubSeed = [] ++ ib ++ (skSeed ++ skPrf ++ root ++ pubSeed) := by simp
  have r0 : rd (ib ++ skSeed ++ skPrf ++ root ++ pubSeed) 0 p.index_bytes = some ib := by
    rw [e1]; exact rd_append _ _ _ rfl hib.symm
  rw [r0]
  trsimp
  rw [bytesToUll_eq (by rw [hib]; exact g.idx_le)]
  trsimp
  rw [if_neg (by omega)]
  by_cases hlt : Rfc.toNat ib < 2 ^ p.full_height - 1
  · rw [if_neg (by omega), if_pos hlt, if_pos hlt]
    trsimp
    rw [if_neg (by omega)]
    have := coreSignBodyT_eq g hH ib skSeed skPrf root pubSeed [] sm0 m post (Rfc.toNat ib) hib h1 h2 h3 h4 hsm
    simp only [List.append_nil] at this
    rw [this]
    congr 1
    congr 2
    congr 1
    have hs : (suiteOf p H).sign skSeed skPrf root pubSeed (Rfc.toNat ib) m =
      ((suiteOf p H).sign skSeed skPrf root pubSeed (Rfc.toNat ib) m).take p.index_bytes ++
      ((suiteOf p H).sign skSeed skPrf root pubSeed (Rfc.toNat ib) m).drop p.index_bytes :=
        (List.take_append_drop _ _).symm
    conv_rhs => rw [hs]
    congr 1
    simp only [Rfc.Suite.sign]
    rw [List.append_assoc, List.take_append_of_le_length (by rw [toByte_length]; exact Nat.le_refl _)]
    have : (suiteOf p H).idxLen = ib.length := hib.symm
    rw [this, toByte_toNat, List.take_of_length_le (by omega)]
  · rw [if_pos (by omega), if_neg hlt, if_neg hlt]
    have e2 : ib ++ skSeed ++ skPrf ++ root ++ pubSeed = ib ++ (skSeed ++ skPrf ++ root ++ pubSeed) := by simp
    rw [e2, wipeKey_eq ib _ hib (l := 4 * p.n) (by simp [h1, h2, h3, h4]; omega) hsk]
    trsimp
    by_cases heq : Rfc.toNat ib = 2 ^ p.full_height - 1
    · rw [if_neg (by omega), if_pos heq, if_pos heq, heq]
      set z : Bytes := List.replicate p.n 0 with hz
      have hzl : z.length = p.n := by simp [hz]
      have e3 : List.replicate p.index_bytes (0xFF : UInt8) ++ List.replicate (4 * p.n) 0 =
          List.replicate p.index_bytes (0xFF : UInt8) ++ z ++ z ++ z ++ z ++ [] := by
        simp only [hz, List.append_assoc, List.append_nil, List.replicate_append_replicate]
        congr 2; ring
      rw [e3, coreSignBodyT_eq g hH (List.replicate p.index_bytes (0xFF : UInt8)) z z z z [] sm0 m post
        (2 ^ p.full_height - 1) (by simp) hzl hzl hzl hzl hsm]
      simp only [List.append_nil]
    · rw [if_pos (by omega), if_neg heq, if_neg heq]

theorem coreSeedKeypairT_eq (g : p.Good) (hH : ∀ x, (H x).length = p.n) (pk sk sA sB sC seedRest skRest pkRest : Bytes)
    (hpk : pk.length = 2 * p.n) (hsk : sk.length = p.index_bytes + 4 * p.n)
    (hA : sA.length = p.n) (hB : sB.length = p.n) (hC : sC.length = p.n) :
    coreSeedKeypairT H p (pk ++ pkRest) (sk ++ skRest) (sA ++ sB ++ sC ++ seedRest) =
      mk ((suiteOf p H).root sA sC ++ sC ++ pkRest,
        List.replicate p.index_bytes 0 ++ sA ++ sB ++ (suiteOf p H).root sA sC ++ sC ++ skRest) (Calls.keygen p) := by
  obtain ⟨k0, k1, k2, k3, k4, rfl, i0, i1, i2, i3, i4⟩ : ∃ k0 k1 k2 k3 k4 : Bytes, sk = k0 ++ k1 ++ k2 ++ k3 ++ k4 ∧
      k0.length = p.index_bytes ∧ k1.length = p.n ∧ k2.length = p.n ∧ k3.length = p.n ∧ k4.length = p.n := by
    refine ⟨sk.take p.index_bytes, (sk.drop p.index_bytes).take p.n, (sk.drop (p.index_bytes + p.n)).take p.n,
      (sk.drop (p.index_bytes + p.n + p.n)).take p.n, sk.drop (p.index_bytes + p.n + p.n + p.n), ?_, ?_, ?_, ?_, ?_, ?_⟩
    · conv_lhs => rw [split3 sk (p.index_bytes + p.n + p.n) p.n]
      rw [List.take_add, List.take_add]
    all_goals simp; omega
  obtain ⟨q0, q1, rfl, j0, j1⟩ : ∃ q0 q1 : Bytes, pk = q0 ++ q1 ∧ q0.length = p.n ∧ q1.length = p.n :=
    ⟨pk.take p.n, pk.drop p.n, (List.take_append_drop _ _).symm, by simp; omega, by simp; omega⟩
  rw [coreSeedKeypairT]
  set Z : Bytes := List.replicate p.index_bytes 0 with hZ
  have hZl : Z.length = p.index_bytes := by simp [hZ]
  have w1 : wr (k0 ++ k1 ++ k2 ++ k3 ++ k4 ++ skRest) 0 Z = some (Z ++ k1 ++ k2 ++ k3 ++ k4 ++ skRest) := by
    have := wr_append [] k0 (k1 ++ k2 ++ k3 ++ k4 ++ skRest) Z (off := 0) rfl (by omega)
    simpa [List.append_assoc] using this
  have r1 : rd (sA ++ sB ++ sC ++ seedRest) 0 (2 * p.n) = some (sA ++ sB) := by
    have := rd_append [] (sA ++ sB) (sC ++ seedRest) (off := 0) (len := 2 * p.n) rfl (by simp [hA, hB]; omega)
    simpa [List.append_assoc] using this
  rw [w1, r1]
  trsimp
  have w2 : wr (Z ++ k1 ++ k2 ++ k3 ++ k4 ++ skRest) p.index_bytes (sA ++ sB) =
      some (Z ++ sA ++ sB ++ k3 ++ k4 ++ skRest) := by
    have := wr_append Z (k1 ++ k2) (k3 ++ k4 ++ skRest) (sA ++ sB) (off := p.index_bytes) hZl.symm (by simp; omega)
    simpa [List.append_assoc] using this
  have r2 : rd (sA ++ sB ++ sC ++ seedRest) (2 * p.n) p.n = some sC :=
    rd_append (sA ++ sB) sC seedRest (by simp [hA, hB]; omega) hC.symm
  rw [w2, r2]
  trsimp
  have w3 : wr (Z ++ sA ++ sB ++ k3 ++ k4 ++ skRest) (p.index_bytes + 3 * p.n) sC =
      some (Z ++ sA ++ sB ++ k3 ++ sC ++ skRest) :=
    wr_append (Z ++ sA ++ sB ++ k3) k4 skRest sC (by simp only [List.length_append]; omega) (by omega)
  rw [w3]
  trsimp
  have r3 : rd (Z ++ sA ++ sB ++ k3 ++ sC ++ skRest) (p.index_bytes + 3 * p.n) p.n = some sC :=
    rd_append (Z ++ sA ++ sB ++ k3) sC skRest (by simp only [List.length_append]; omega) hC.symm
  rw [r3]
  trsimp
  rw [wr_append q0 q1 pkRest sC j0.symm (by omega)]
  trsimp
  have r4 : rd (Z ++ sA ++ sB ++ k3 ++ sC ++ skRest) p.index_bytes p.n = some sA := by
    have := rd_append Z sA (sB ++ k3 ++ sC ++ skRest) (off := p.index_bytes) (len := p.n) hZl.symm hA.symm
    simpa [List.append_assoc] using this
  rw [r4, rd_append q0 sC pkRest j0.symm hC.symm]
  trsimp
  rw [treehashT_eq, treehash_eq g hH (layer := p.d - 1) (tree := 0) sA sC (Nat.two_pow_pos _) _ _ rfl rfl rfl (by simp)]
  trsimp
  set T := (suiteOf p H).treeRoot sA sC (p.d - 1) 0 with hT
  have hTl : T.length = p.n := node_length g hH _ _ _ _ _ _
  have w4 : wr (q0 ++ sC ++ pkRest) 0 T = some (T ++ sC ++ pkRest) := by
    have := wr_append [] q0 (sC ++ pkRest) T (off := 0) rfl (by omega)
    simpa [List.append_assoc] using this
  have r5 : rd (T ++ sC ++ pkRest) 0 p.n = some T := by
    have := rd_append [] T (sC ++ pkRest) (off := 0) (len := p.n) rfl hTl.symm
    simpa [List.append_assoc] using this
  rw [w4]
  trsimp
  rw [r5]
  trsimp
  have w5 : wr (Z ++ sA ++ sB ++ k3 ++ sC ++ skRest) (p.index_bytes + 2 * p.n) T =
      some (Z ++ sA ++ sB ++ T ++ sC ++ skRest) := by
    have := wr_append (Z ++ sA ++ sB) k3 (sC ++ skRest) T (off := p.index_bytes + 2 * p.n)
      (by simp only [List.length_append]; omega) (by omega)
    simpa [List.append_assoc] using this
  rw [w5]
  trsimp
  rfl

theorem coreSignOpenT_eq (g : p.Good) (hH : ∀ x, (H x).length = p.n) (root pubSeed pkRest sig msg smRest m0 m1 : Bytes)
    (hr : root.length = p.n) (hps : pubSeed.length = p.n) (hsig : sig.length = p.sig_bytes)
    (hmsg : p.sig_bytes + msg.length < 2 ^ 64)
    (hm0 : m0.length = p.sig_bytes + msg.length) :
    ∃ mbuf : Bytes, mbuf.length = p.sig_bytes ∧
    mbuf = m0.take (p.sig_bytes - p.padding_len - 3 * p.n) ++ (Rfc.toByte 2 p.padding_len ++
      (sig.drop p.index_bytes).take p.n ++ root ++ Rfc.toByte (Rfc.toNat (sig.take p.index_bytes)) p.n) ∧
    coreSignOpenT H p (m0 ++ m1) (sig ++ msg ++ smRest) (p.sig_bytes + msg.length) (root ++ pubSeed ++ pkRest) =
      mk (if (suiteOf p H).verifyRoot root pubSeed msg sig = root then
        { ret := 0, m := msg ++ (mbuf ++ msg).drop msg.length ++ m1, mlen := msg.length }
      else
        { ret := -1, m := List.replicate msg.length 0 ++ (mbuf ++ msg).drop msg.length ++ m1, mlen := 0 })
        (Calls.verify p (suiteOf p H) msg.length (Calls.digests (suiteOf p H) root pubSeed msg sig)) := by
  have hfit := g.prefix_fits
  rw [coreSignOpenT]
  have k1 : rd (root ++ pubSeed ++ pkRest) 0 p.n = some root := by
    have := rd_append [] root (pubSeed ++ pkRest) (off := 0) (len := p.n) rfl hr.symm
    simpa [List.append_assoc] using this
  have k2 : rd (root ++ pubSeed ++ pkRest) p.n p.n = some pubSeed := rd_append _ _ _ hr.symm hps.symm
  rw [k1, k2]
  trsimp
  have hml : (p.sig_bytes + msg.length + 2 ^ 64 - p.sig_bytes) % 2 ^ 64 = msg.length := by
    have : p.sig_bytes + msg.length + 2 ^ 64 - p.sig_bytes = msg.length + 2 ^ 64 := by omega
    rw [this, Nat.add_mod_right, Nat.mod_eq_of_lt (by omega)]
  rw [hml]
  -- split the signature
  obtain ⟨ib, R, body, rfl, hib, hR, hbody⟩ : ∃ ib R body : Bytes, sig = ib ++ R ++ body ∧ ib.length = p.index_bytes ∧
      R.length = p.n ∧ body.length = p.d * ((p.wots_len + p.tree_height) * p.n) := by
    have := g.sig_eq'
    refine ⟨_, _, _, split3 sig p.index_bytes p.n, ?_, ?_, ?_⟩ <;> simp <;> omega
  have r1 : rd (ib ++ R ++ body ++ msg ++ smRest) 0 p.index_bytes = some ib := by
    have := rd_append [] ib (R ++ body ++ msg ++ smRest) (off := 0) (len := p.index_bytes) rfl hib.symm
    simpa [List.append_assoc] using this
  have r2 : rd (ib ++ R ++ body ++ msg ++ smRest) p.sig_bytes msg.length = some msg :=
    rd_append (ib ++ R ++ body) msg smRest hsig.symm rfl
  have r3 : rd (ib ++ R ++ body ++ msg ++ smRest) p.index_bytes p.n = some R := by
    have := rd_append ib R (body ++ msg ++ smRest) (off := p.index_bytes) (len := p.n) hib.symm hR.symm
    simpa [List.append_assoc] using this
  rw [r1]
  trsimp
  rw [bytesToUll_eq (by rw [hib]; exact g.idx_le)]
  trsimp
  rw [r2]
  trsimp
  obtain ⟨a, b, c, rfl, ha, hb, hc⟩ : ∃ a b c : Bytes, m0 = a ++ b ++ c ∧
      a.length = p.sig_bytes - p.padding_len - 3 * p.n ∧
      b.length = p.padding_len + 3 * p.n ∧ c.length = msg.length := by
    refine ⟨_, _, _, split3 m0 (p.sig_bytes - p.padding_len - 3 * p.n) (p.padding_len + 3 * p.n), ?_, ?_, ?_⟩ <;>
      simp <;> omega
  rw [wr_append (a ++ b) c m1 msg (by simp only [List.length_append]; omega) hc.symm]
  trsimp
  rw [if_neg (by omega), r3]
  trsimp
  rw [hashMessageT_eq, hashMessage_eq R root hR hr (Rfc.toNat ib) a b msg m1 hb ha.symm rfl]
  trsimp
  set D := Rfc.toByte 2 p.padding_len ++ R ++ root ++ Rfc.toByte (Rfc.toNat ib) p.n with hD
  have hDl : D.length = p.padding_len + 3 * p.n := by simp [hD, toByte_length, hR, hr]; omega
  have e1 : ib ++ R ++ body ++ msg ++ smRest = (ib ++ R) ++ body ++ (msg ++ smRest) := by simp
  have hoff : p.index_bytes + p.n = (ib ++ R).length := by simp [hib, hR]
  obtain ⟨v1, v2⟩ := openLayersT_eq g hH pubSeed p.d 0 (Rfc.toNat ib) (setType Addr.zero typeOts)
    (setType Addr.zero typeLtree) (setType Addr.zero typeHashtree) ((suiteOf p H).digest R root (Rfc.toNat ib) msg)
    (ib ++ R) body (msg ++ smRest) rfl rfl rfl rfl (hH _) hbody
  rw [e1, hoff, v1]
  trsimp
  have hvr : (suiteOf p H).verifyRoot root pubSeed msg (ib ++ R ++ body) =
      (suiteOf p H).verifyLayers pubSeed p.d 0 (Rfc.toNat ib) ((suiteOf p H).digest R root (Rfc.toNat ib) msg) body ∧
      Calls.digests (suiteOf p H) root pubSeed msg (ib ++ R ++ body) =
      Calls.layerDigests (suiteOf p H) pubSeed p.d 0 (Rfc.toNat ib) ((suiteOf p H).digest R root (Rfc.toNat ib) msg) body := by
    have hil : (suiteOf p H).idxLen = ib.length := hib.symm
    have hnl : (suiteOf p H).n = R.length := hR.symm
    rw [Rfc.Suite.verifyRoot, Calls.digests, hil, hnl]
    simp only [List.append_assoc]
    rw [List.take_left, List.drop_left, List.take_left, ← List.append_assoc, ← List.length_append, List.drop_left]
    exact ⟨rfl, rfl⟩
  rw [hvr.1, hvr.2]
  refine ⟨a ++ D, by simp only [List.length_append]; omega, ?_, ?_⟩
  · rw [hD, List.append_assoc a, List.take_left' ha, List.append_assoc ib, List.take_left' hib, List.drop_left' hib,
      List.take_left' hR]
  have hsplit : a ++ D ++ msg ++ m1 = [] ++ (a ++ D ++ msg).take msg.length ++ ((a ++ D ++ msg).drop msg.length ++ m1) := by
    generalize a ++ D ++ msg = X
    rw [List.nil_append, ← List.append_assoc, List.take_append_drop]
  have htl : ((a ++ D ++ msg).take msg.length).length = msg.length := by
    rw [List.length_take, List.length_append]; omega
  by_cases h : (suiteOf p H).verifyLayers pubSeed p.d 0 (Rfc.toNat ib)
      ((suiteOf p H).digest R root (Rfc.toNat ib) msg) body = root
  · rw [if_neg (by simpa using h), if_pos h, hsplit, ← e1]
    have r4 : rd (ib ++ R ++ body ++ msg ++ smRest)
        ((ib ++ R).length + p.d * (p.wots_sig_bytes + p.tree_height * p.n)) msg.length = some msg := by
      apply rd_append (ib ++ R ++ body) msg smRest _ rfl
      rw [List.length_append (as := ib ++ R), hbody, g.sig_wots]; ring
    rw [r4]
    trsimp
    rw [wr_append [] _ _ msg (off := 0) rfl htl.symm]
    trsimp
    simp [Calls.verify]
  · rw [if_pos (by simpa using h), if_neg h, hsplit]
    rw [wr_append [] _ _ _ (off := 0) rfl (by rw [htl, List.length_replicate])]
    trsimp
    simp [Calls.verify]

/-! ### The record changes nothing, for all inputs -/

namespace Tr
variable {α β : Type}
/-- The value without the record. -/
def val (t : Tr α) : Option α := Option.map Prod.fst t

theorem val_bind (t : Tr α) (f : α → Tr β) : val (t >>= f) = (val t).bind fun a => val (f a) := by
  cases t with
  | none => rfl
  | some r =>
    obtain ⟨a, l⟩ := r
    show val (mk a l >>= f) = _
    rw [bind_mk]
    show _ = val (f a)
    generalize f a = u
    cases u <;> rfl
theorem val_pure (a : α) : val (pure a : Tr α) = some a := rfl
theorem val_mk (a : α) (l : List Nat) : val (mk a l) = some a := rfl
theorem val_opt (o : Option α) : val (Tr.opt o) = o := by cases o <;> rfl
theorem val_lift (l : List Nat) (o : Option α) : val (lift l o) = o := by cases o <;> rfl
theorem val_ite {c : Prop} [Decidable c] (t u : Tr α) : val (if c then t else u) = if c then val t else val u := by
  split <;> rfl
end Tr

theorem wotsSignT_val (msg seed pubSeed : Bytes) (a : Addr) :
    val (wotsSignT H p msg seed pubSeed a) = some (wotsSign H p msg seed pubSeed a) := by
  simp only [wotsSignT, wotsSign, expandSeedT_eq, chainsLoopT_eq, val_bind, val_mk, Option.bind_some]

theorem wotsPkFromSigT_val (sig : List Bytes) (msg pubSeed : Bytes) (a : Addr) :
    val (wotsPkFromSigT H p sig msg pubSeed a) = some (wotsPkFromSig H p sig msg pubSeed a) := by
  simp only [wotsPkFromSigT, wotsPkFromSig, chainsLoopT_eq, val_mk]

theorem signLayersT_val (skSeed pubSeed : Bytes) : ∀ (k i idx : Nat) (a : Addr) (root sm : Bytes) (off : Nat),
    val (signLayersT H p skSeed pubSeed k i idx a root sm off) = signLayers H p skSeed pubSeed k i idx a root sm off
  | 0, _, _, _, _, _, _ => rfl
  | k + 1, i, idx, a, root, sm, off => by
    simp only [signLayersT, signLayers, val_bind, val_opt, wotsSignT_val, treehashT_eq, val_lift, Option.bind_some,
      signLayersT_val skSeed pubSeed k, Option.bind_eq_bind]

theorem openLayersT_val (pubSeed sm : Bytes) : ∀ (k i idx : Nat) (o l n : Addr) (root : Bytes) (off : Nat),
    val (openLayersT H p pubSeed sm k i idx o l n root off) = openLayers H p pubSeed sm k i idx o l n root off
  | 0, _, _, _, _, _, _, _ => rfl
  | k + 1, i, idx, o, l, n, root, off => by
    simp only [openLayersT, openLayers, val_bind, val_opt, wotsPkFromSigT_val, lTreeT_eq, computeRootT_eq, val_mk, val_lift,
      Option.bind_some, openLayersT_val pubSeed sm k, Option.bind_eq_bind]

theorem coreSignBodyT_val (sk sm : Bytes) (mlen idx : Nat) :
    val (coreSignBodyT H p sk sm mlen idx) = coreSignBody H p sk sm mlen idx := by
  simp only [coreSignBodyT, coreSignBody, val_bind, val_opt, prfT_eq, val_mk, val_ite, hashMessageT_eq, val_lift, signLayersT_val,
    val_pure, Option.bind_some, Option.bind_eq_bind]

theorem coreSignT_val (sk sm m : Bytes) : val (coreSignT H p sk sm m) = coreSign H p sk sm m := by
  simp only [coreSignT, coreSign, val_bind, val_opt, val_ite, coreSignBodyT_val, val_pure, Option.bind_eq_bind]

theorem coreSeedKeypairT_val (pk sk seed : Bytes) : val (coreSeedKeypairT H p pk sk seed) = coreSeedKeypair H p pk sk seed := by
  simp only [coreSeedKeypairT, coreSeedKeypair, val_bind, val_opt, treehashT_eq, val_lift, val_pure, Option.bind_eq_bind]

theorem coreSignOpenT_val (m sm : Bytes) (smlen : Nat) (pk : Bytes) :
    val (coreSignOpenT H p m sm smlen pk) = coreSignOpen H p m sm smlen pk := by
  simp only [coreSignOpenT, coreSignOpen, val_bind, val_opt, val_ite, hashMessageT_eq, val_lift, openLayersT_val, val_pure,
    Option.bind_eq_bind]

theorem apiKeypairT_val (P : Prims) (parse : Nat → Option Params) (pk sk : Bytes) (oid : Nat) (seed : Nat → Bytes) :
    val (apiKeypairT P parse pk sk oid seed) = apiKeypair P parse pk sk oid seed := by
  rw [apiKeypairT, apiKeypair]
  cases parse oid with
  | none => rfl
  | some p => simp only [val_bind, val_opt, coreSeedKeypairT_val, val_pure, Option.bind_eq_bind]

theorem apiSignT_val (P : Prims) (parse : Nat → Option Params) (sk sm : Bytes) (l0 : Nat) (m : Bytes) :
    val (apiSignT P parse sk sm l0 m) = apiSign P parse sk sm l0 m := by
  rw [apiSignT, apiSign, val_bind, val_opt]
  cases readOid sk with
  | none => rfl
  | some oid =>
    simp only [Option.bind_some, Option.bind_eq_bind]
    cases parse oid with
    | none => rfl
    | some p => simp only [val_bind, val_opt, coreSignT_val, val_pure]

theorem apiOpenT_val (P : Prims) (parse : Nat → Option Params) (m : Bytes) (l0 : Nat) (sm : Bytes) (smlen : Nat) (pk : Bytes) :
    val (apiOpenT P parse m l0 sm smlen pk) = apiOpen P parse m l0 sm smlen pk := by
  rw [apiOpenT, apiOpen, val_bind, val_opt]
  cases readOid pk with
  | none => rfl
  | some oid =>
    simp only [Option.bind_some, Option.bind_eq_bind]
    cases parse oid with
    | none => rfl
    | some p => simp only [val_bind, val_opt, coreSignOpenT_val]

end Xmss
