import Verif.Model.Core
/-
Verification does not read `sk_bytes`, the only parameter in which the simple and the fast build differ.
-/
namespace Xmss

variable {H : Bytes → Bytes} {p : Params} {x : Nat}
theorem thashF_skb : thashF H {p with sk_bytes := x} = thashF H p := rfl
theorem thashH_skb : thashH H {p with sk_bytes := x} = thashH H p := rfl
theorem genChainLoop_skb (s : Bytes) : ∀ k i o a, genChainLoop H {p with sk_bytes := x} s k i o a = genChainLoop H p s k i o a := by
  intro k; induction k with
  | zero => intros; rfl
  | succ k ih => intro i o a; rw [genChainLoop, genChainLoop, thashF_skb, ih]
theorem chainsLoop_skb (s : Bytes) : ∀ l i a, chainsLoop H {p with sk_bytes := x} s i l a = chainsLoop H p s i l a := by
  intro l; induction l with
  | nil => intros; rfl
  | cons c l ih => 
    intro i a
    obtain ⟨y, st, n⟩ := c
    rw [chainsLoop, chainsLoop, genChain, genChain, genChainLoop_skb, ih]
theorem baseWLoop_skb (y : Bytes) : ∀ k i t b, baseWLoop {p with sk_bytes := x} y k i t b = baseWLoop p y k i t b := by
  intro k; induction k with
  | zero => intros; rfl
  | succ k ih => intro i t b; rw [baseWLoop, baseWLoop, ih]
theorem csumLoop_skb : ∀ l c, csumLoop {p with sk_bytes := x} l c = csumLoop p l c := by
  intro l; induction l with
  | nil => intros; rfl
  | cons k l ih => intro c; rw [csumLoop, csumLoop, ih]
theorem chainLengths_skb (m : Bytes) : chainLengths {p with sk_bytes := x} m = chainLengths p m := by
  simp only [chainLengths, baseW, wotsChecksum, baseWLoop_skb, csumLoop_skb]
theorem wotsPkFromSig_skb (sig : List Bytes) (m s : Bytes) (a : Addr) :
    wotsPkFromSig H {p with sk_bytes := x} sig m s a = wotsPkFromSig H p sig m s a := by
  rw [wotsPkFromSig, wotsPkFromSig, chainLengths_skb, chainsLoop_skb]
theorem ltreeRow_skb (s : Bytes) : ∀ k i l a, ltreeRow H {p with sk_bytes := x} s k i l a = ltreeRow H p s k i l a := by
  intro k; induction k with
  | zero => intros; rfl
  | succ k ih => intro i l a; rw [ltreeRow, ltreeRow, thashH_skb, ih]
theorem ltreeLoop_skb (s : Bytes) : ∀ k i h l a, ltreeLoop H {p with sk_bytes := x} s k i h l a = ltreeLoop H p s k i h l a := by
  intro k; induction k with
  | zero => intros; rfl
  | succ k ih => intro i h l a; simp only [ltreeLoop, ltreeRow_skb, ih]
theorem lTree_skb (l : List Bytes) (s : Bytes) (a : Addr) : lTree H {p with sk_bytes := x} l s a = lTree H p l s a := by
  rw [lTree, lTree, ltreeLoop_skb]
theorem computeRootLoop_skb (s : Bytes) : ∀ l i h b a, computeRootLoop H {p with sk_bytes := x} s i h l b a = computeRootLoop H p s i h l b a := by
  intro k; induction k with
  | nil => intros; rfl
  | cons c k ih => intro i h l a; rw [computeRootLoop, computeRootLoop, thashH_skb, ih]
theorem computeRoot_skb (y : Bytes) (i : Nat) (l : List Bytes) (s : Bytes) (a : Addr) :
    computeRoot H {p with sk_bytes := x} y i l s a = computeRoot H p y i l s a := by
  cases l with
  | nil => rfl
  | cons c l => rw [computeRoot, computeRoot, computeRootLoop_skb]
theorem leafOf_skb (i : Nat) : leafOf {p with sk_bytes := x} i = leafOf p i := rfl
theorem openLayers_skb (s sm : Bytes) : ∀ k i idx a b c r off, openLayers H {p with sk_bytes := x} s sm k i idx a b c r off =
    openLayers H p s sm k i idx a b c r off := by
  intro k; induction k with
  | zero => intros; rfl
  | succ k ih => intros; simp only [openLayers, leafOf_skb, wotsPkFromSig_skb, lTree_skb, computeRoot_skb, ih]
theorem coreSignOpen_skb (m sm : Bytes) (l : Nat) (pk : Bytes) : coreSignOpen H {p with sk_bytes := x} m sm l pk = coreSignOpen H p m sm l pk := by
  unfold coreSignOpen
  simp only [openLayers_skb]
  rfl
end Xmss
