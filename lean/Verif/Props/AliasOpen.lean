import Verif.Props.Alias
import Verif.Props.StrongForgery
/-
C64, C65, opening: the output buffer `m` and the signed message in one memory.
-/
namespace Xmss

variable {P : Prims} {f : Family} {oid : Nat} {p : Params} {H : Bytes → Bytes}

namespace Alias

/-! ### Bytes of a memory -/

theorem at_get (mem : Bytes) (a len i : Nat) : (at_ mem a len)[i]? = if i < len then mem[a + i]? else none := by
  rw [at_, List.getElem?_take]; simp

theorem put_get {mem bs : Bytes} {a : Nat} (h : a + bs.length ≤ mem.length) (i : Nat) :
    (put mem a bs)[i]? = if i < a then mem[i]? else if i < a + bs.length then bs[i - a]? else mem[i]? := by
  have hl : (mem.take a).length = a := by simp; omega
  rw [put, List.append_assoc]
  by_cases h1 : i < a
  · rw [if_pos h1, List.getElem?_append_left (by omega), List.getElem?_take, if_pos h1]
  · rw [if_neg h1, List.getElem?_append_right (by omega), hl]
    by_cases h2 : i < a + bs.length
    · rw [if_pos h2, List.getElem?_append_left (by omega)]
    · rw [if_neg h2, List.getElem?_append_right (by omega), List.getElem?_drop]
      congr 1; omega

theorem put_put {mem x y : Bytes} {a b : Nat} (hb : b = a + x.length) (h : a + x.length + y.length ≤ mem.length) :
    put (put mem a x) b y = put mem a (x ++ y) := by
  subst hb
  apply List.ext_getElem?
  intro i
  rw [put_get (by rw [put_length] <;> omega), put_get (by omega), put_get (by simp; omega)]
  simp only [List.length_append]
  by_cases h1 : i < a
  · simp [h1]; omega
  · by_cases h2 : i < a + x.length
    · rw [if_pos h2, if_neg h1, if_pos h2, if_neg h1, if_pos (by omega), List.getElem?_append_left (by omega)]
    · rw [if_neg h2, if_neg h1, if_neg h1]
      by_cases h3 : i < a + x.length + y.length
      · rw [if_pos h3, if_pos (by omega), List.getElem?_append_right (by omega)]
        congr 1; omega
      · rw [if_neg h3, if_neg h2, if_neg (by omega)]

theorem at_put_disj {mem x : Bytes} {a b len : Nat} (h : a + x.length ≤ mem.length) (hd : a + x.length ≤ b ∨ b + len ≤ a) :
    at_ (put mem a x) b len = at_ mem b len := by
  apply List.ext_getElem?
  intro i
  rw [at_get, at_get]
  by_cases h1 : i < len
  · rw [if_pos h1, if_pos h1, put_get h]
    by_cases h2 : b + i < a
    · rw [if_pos h2]
    · rw [if_neg h2, if_neg (by omega)]
  · rw [if_neg h1, if_neg h1]

theorem at_put_same {mem x : Bytes} {a len : Nat} (h : a + x.length ≤ mem.length) (hl : len = x.length) :
    at_ (put mem a x) a len = x := by
  subst hl
  apply List.ext_getElem?
  intro i
  rw [at_get]
  by_cases h1 : i < x.length
  · rw [if_pos h1, put_get h, if_neg (by omega), if_pos (by omega)]
    congr 1; omega
  · rw [if_neg h1, List.getElem?_eq_none (by omega)]

theorem at_add (mem : Bytes) (a k l : Nat) (h : a + k ≤ mem.length) : at_ mem a (k + l) = at_ mem a k ++ at_ mem (a + k) l := by
  rw [at_, at_, at_, List.take_add, List.drop_drop]

theorem at_at (mem : Bytes) (a b k l : Nat) (h : b + k ≤ l) : at_ (at_ mem a l) b k = at_ mem (a + b) k := by
  apply List.ext_getElem?
  intro i
  rw [at_get, at_get, at_get]
  by_cases h1 : i < k
  · rw [if_pos h1, if_pos h1, if_pos (by omega), Nat.add_assoc]
  · rw [if_neg h1, if_neg h1]

/-- Two writes far from each other. -/
theorem put_comm {mem x y : Bytes} {a b : Nat} (ha : a + x.length ≤ mem.length) (hb : b + y.length ≤ mem.length)
    (hd : a + x.length ≤ b ∨ b + y.length ≤ a) : put (put mem a x) b y = put (put mem b y) a x := by
  apply List.ext_getElem?
  intro i
  rw [put_get (by rw [put_length] <;> omega), put_get ha, put_get (by rw [put_length] <;> omega), put_get hb]
  split_ifs <;> first | rfl | omega

/-- A write into a part of the memory. -/
theorem put_at {mem x : Bytes} {a b l : Nat} (hl : a + l ≤ mem.length) (hb : b + x.length ≤ l) :
    put mem (a + b) x = put mem a (put (at_ mem a l) b x) := by
  have h1 := at_length hl
  have h2 : (put (at_ mem a l) b x).length = l := by rw [put_length] <;> omega
  apply List.ext_getElem?
  intro i
  rw [put_get (by omega), put_get (by omega), h2]
  by_cases c1 : i < a
  · rw [if_pos (by omega), if_pos c1]
  · rw [if_neg c1]
    by_cases c2 : i < a + l
    · rw [if_pos c2, put_get (by omega), at_get, if_pos (show i - a < l by omega), show a + (i - a) = i by omega]
      by_cases c3 : i < a + b
      · rw [if_pos c3, if_pos (by omega)]
      · rw [if_neg c3, if_neg (show ¬ i - a < b by omega)]
        by_cases c4 : i < a + b + x.length
        · rw [if_pos c4, if_pos (by omega), Nat.sub_sub]
        · rw [if_neg c4, if_neg (by omega)]
    · rw [if_neg c2, if_neg (show ¬ i < a + b by omega), if_neg (by omega)]

theorem wr_put {mem x : Bytes} {a : Nat} (h : a + x.length ≤ mem.length) : wr mem a x = some (put mem a x) := wr_some h

theorem rd_at {mem : Bytes} {a len : Nat} (h : a + len ≤ mem.length) : rd mem a len = some (at_ mem a len) := rd_some h

/-! ### One call of open -/

/-- What `hash_message` stores in front of the message. -/
def prefixOf (p : Params) (R root : Bytes) (idx : Nat) : Bytes :=
  Rfc.toByte 2 p.padding_len ++ R ++ root ++ Rfc.toByte idx p.n

theorem prefixOf_length {R root : Bytes} {idx : Nat} (hR : R.length = p.n) (hr : root.length = p.n) :
    (prefixOf p R root idx).length = p.padding_len + 3 * p.n := by
  simp [prefixOf, toByte_length, hR, hr]; omega

theorem hashMessageIn_eq (mem root : Bytes) (R w idx mlen : Nat) (hroot : root.length = p.n)
    (hw : w + (mlen + p.padding_len + 3 * p.n) ≤ mem.length) (hR : R + p.n ≤ mem.length)
    (hd : R + p.n ≤ w ∨ w + p.padding_len + 3 * p.n ≤ R) :
    hashMessageIn H p mem R root idx w mlen =
      some ((suiteOf p H).digest (at_ mem R p.n) root idx (at_ mem (w + p.padding_len + 3 * p.n) mlen),
        put mem w (prefixOf p (at_ mem R p.n) root idx)) := by
  have hRl : (at_ mem R p.n).length = p.n := at_length hR
  have l0 : (ullToBytes p.padding_len padHash).length = p.padding_len := by rw [ullToBytes_eq]; exact toByte_length _ _
  have l3 : (ullToBytes p.n idx).length = p.n := by rw [ullToBytes_eq]; exact toByte_length _ _
  rw [hashMessageIn]
  simp only [Option.bind_eq_bind]
  rw [wr_put (by omega)]
  simp only [Option.bind_some]
  have hl1 : (put mem w (ullToBytes p.padding_len padHash)).length = mem.length := put_length (by omega)
  rw [memcpyIn_put (by omega) (by omega) (by omega), at_put_disj (by omega) (by omega)]
  simp only [Option.bind_some]
  rw [put_put (by omega) (by omega)]
  rw [wr_put (by rw [put_length (by simp only [List.length_append]; omega)]; omega)]
  simp only [Option.bind_some]
  rw [put_put (by simp only [List.length_append]; omega) (by simp only [List.length_append]; omega)]
  rw [wr_put (by rw [put_length (by simp only [List.length_append]; omega)]; omega)]
  simp only [Option.bind_some]
  rw [put_put (by simp only [List.length_append]; omega) (by simp only [List.length_append]; omega)]
  have eD : ullToBytes p.padding_len padHash ++ at_ mem R p.n ++ root ++ ullToBytes p.n idx =
      prefixOf p (at_ mem R p.n) root idx := by
    rw [ullToBytes_eq, ullToBytes_eq]; rfl
  rw [eD]
  have hDl : (prefixOf p (at_ mem R p.n) root idx).length = p.padding_len + 3 * p.n := prefixOf_length hRl hroot
  have hl2 : (put mem w (prefixOf p (at_ mem R p.n) root idx)).length = mem.length := put_length (by omega)
  rw [rd_at (by omega)]
  simp only [Option.bind_some]
  rw [show mlen + p.padding_len + 3 * p.n = (p.padding_len + 3 * p.n) + mlen by omega, at_add _ _ _ _ (by omega),
    at_put_same (by omega) hDl.symm, at_put_disj (by omega) (by omega), ← Nat.add_assoc]
  simp only [Rfc.Suite.digest, Rfc.Suite.Hmsg, suiteOf, prefixOf, List.append_assoc]

/-- The root the verifier computes from a signature body. -/
theorem openLayers_at (g : p.Good) (hH : ∀ x, (H x).length = p.n) (pubSeed mem M : Bytes) (idx a : Nat) (hM : M.length = p.n)
    (h : a + p.d * ((p.wots_len + p.tree_height) * p.n) ≤ mem.length) :
    openLayers H p pubSeed mem p.d 0 idx (setType Addr.zero typeOts) (setType Addr.zero typeLtree)
        (setType Addr.zero typeHashtree) M a =
      some ((suiteOf p H).verifyLayers pubSeed p.d 0 idx M (at_ mem a (p.d * ((p.wots_len + p.tree_height) * p.n)))) := by
  have e := split3 mem a (p.d * ((p.wots_len + p.tree_height) * p.n))
  have la : (mem.take a).length = a := by simp; omega
  have := (openLayers_eq g hH pubSeed p.d 0 idx (setType Addr.zero typeOts) (setType Addr.zero typeLtree)
    (setType Addr.zero typeHashtree) M (mem.take a) (at_ mem a (p.d * ((p.wots_len + p.tree_height) * p.n)))
    (mem.drop (a + p.d * ((p.wots_len + p.tree_height) * p.n))) rfl rfl rfl rfl hM (at_length h)).1
  rw [la] at this
  rw [← this]
  congr 1

/-- One call of open with pointers into one memory, the general case: `mem1` is the memory after the message has been copied,
`mem2` after the hash prefix has been stored. -/
theorem openIn_core (g : p.Good) (hH : ∀ x, (H x).length = p.n) (root pubSeed mem : Bytes) (m sm mlen : Nat)
    (hr : root.length = p.n) (hps : pubSeed.length = p.n) (h64 : p.sig_bytes + mlen < 2 ^ 64)
    (hsm : sm + (p.sig_bytes + mlen) ≤ mem.length) (hm : m + (p.sig_bytes + mlen) ≤ mem.length)
    (hc : m = sm ∨ sm + mlen ≤ m ∨ m + mlen ≤ sm)
    (hR : sm + p.index_bytes + p.n ≤ m + p.sig_bytes - p.padding_len - 3 * p.n ∨ m + p.sig_bytes ≤ sm + p.index_bytes) :
    let msg := at_ mem (sm + p.sig_bytes) mlen
    let mem1 := put mem (m + p.sig_bytes) msg
    let idx := Rfc.toNat (at_ mem sm p.index_bytes)
    let R := at_ mem1 (sm + p.index_bytes) p.n
    let mem2 := put mem1 (m + p.sig_bytes - p.padding_len - 3 * p.n) (prefixOf p R root idx)
    let body := at_ mem2 (sm + p.index_bytes + p.n) (p.d * ((p.wots_len + p.tree_height) * p.n))
    coreSignOpenIn H p mem m sm (p.sig_bytes + mlen) (root ++ pubSeed) =
      if (suiteOf p H).verifyLayers pubSeed p.d 0 idx ((suiteOf p H).digest R root idx msg) body = root then
        (memcpyIn mem2 m (sm + p.sig_bytes) mlen).map fun x => { ret := 0, m := x, mlen := mlen }
      else some { ret := -1, m := put mem2 m (List.replicate mlen 0), mlen := 0 } := by
  intro msg mem1 idx R mem2 body
  have hfit := g.prefix_fits
  have hsig := g.sig_eq'
  have hmsgl : msg.length = mlen := at_length (by omega)
  have hl1 : mem1.length = mem.length := put_length (by omega)
  have hRl : R.length = p.n := at_length (by omega)
  have hDl : (prefixOf p R root idx).length = p.padding_len + 3 * p.n := prefixOf_length hRl hr
  have hl2 : mem2.length = mem.length := by rw [← hl1]; exact put_length (by omega)
  rw [coreSignOpenIn]
  simp only [Option.bind_eq_bind]
  have k1 : rd (root ++ pubSeed) 0 p.n = some root := by
    have := rd_append [] root pubSeed (off := 0) (len := p.n) rfl hr.symm
    simpa using this
  have k2 : rd (root ++ pubSeed) p.n p.n = some pubSeed := by
    have := rd_append root pubSeed [] (off := p.n) (len := p.n) hr.symm hps.symm
    simpa using this
  rw [k1, k2]
  simp only [Option.bind_some]
  have hml : (p.sig_bytes + mlen + 2 ^ 64 - p.sig_bytes) % 2 ^ 64 = mlen := by
    have : p.sig_bytes + mlen + 2 ^ 64 - p.sig_bytes = mlen + 2 ^ 64 := by omega
    rw [this, Nat.add_mod_right, Nat.mod_eq_of_lt (by omega)]
  rw [hml, rd_at (by omega)]
  simp only [Option.bind_some]
  rw [bytesToUll_eq (by rw [at_length (by omega)]; exact g.idx_le)]
  simp only [Option.bind_some]
  rw [memcpyIn_put (by omega) (by omega) (by omega)]
  simp only [Option.bind_some]
  rw [if_neg (by omega)]
  have ew : m + p.sig_bytes - p.padding_len - 3 * p.n + p.padding_len + 3 * p.n = m + p.sig_bytes := by omega
  have hmsg1 : at_ mem1 (m + p.sig_bytes) mlen = msg := at_put_same (by omega) hmsgl.symm
  have hh := hashMessageIn_eq (H := H) mem1 root (sm + p.index_bytes) (m + p.sig_bytes - p.padding_len - 3 * p.n) idx mlen hr
    (by omega) (by omega) (by omega)
  rw [ew, hmsg1] at hh
  rw [hh]
  simp only [Option.bind_some]
  have hol := openLayers_at g hH pubSeed mem2 ((suiteOf p H).digest R root idx msg) idx (sm + p.index_bytes + p.n) (hH _)
    (by omega)
  show Option.bind (openLayers H p pubSeed mem2 p.d 0 idx _ _ _ ((suiteOf p H).digest R root idx msg) _) _ = _
  rw [hol]
  simp only [Option.bind_some]
  have eoff : sm + (p.index_bytes + p.n + p.d * (p.wots_sig_bytes + p.tree_height * p.n)) = sm + p.sig_bytes := by
    rw [hsig, g.sig_wots]; ring
  by_cases h : (suiteOf p H).verifyLayers pubSeed p.d 0 idx ((suiteOf p H).digest R root idx msg) body = root
  · rw [if_pos h, if_neg (by simpa using h), eoff]
    cases memcpyIn mem2 m (sm + p.sig_bytes) mlen <;> rfl
  · rw [if_neg h, if_pos (by simpa using h), wr_put (by rw [List.length_replicate]; show _ ≤ mem2.length; omega)]
    rfl

theorem verifyRoot_eq (g : p.Good) (root pubSeed msg sig : Bytes) (hsig : sig.length = p.sig_bytes) :
    (suiteOf p H).verifyRoot root pubSeed msg sig =
      (suiteOf p H).verifyLayers pubSeed p.d 0 (Rfc.toNat (at_ sig 0 p.index_bytes))
        ((suiteOf p H).digest (at_ sig p.index_bytes p.n) root (Rfc.toNat (at_ sig 0 p.index_bytes)) msg)
        (at_ sig (p.index_bytes + p.n) (p.d * ((p.wots_len + p.tree_height) * p.n))) := by
  have e := g.sig_eq'
  have : at_ sig (p.index_bytes + p.n) (p.d * ((p.wots_len + p.tree_height) * p.n)) = sig.drop (p.index_bytes + p.n) := by
    rw [at_, List.take_of_length_le (by simp; omega)]
  rw [this]
  rfl

theorem apiOpenIn_eq (hp : f.parse oid = some p) (hH : coreHash P p.func p.n = some H) (k : Key) (mem : Bytes)
    (m l0 sm smlen : Nat) :
    apiOpenIn P f.parse mem m l0 sm smlen (k.pk oid) = coreSignOpenIn H p mem m sm smlen (k.root ++ k.pubSeed) := by
  obtain ⟨g, hskb, ho, _⟩ := Family.facts (P := P) hp
  have t1 : ∀ x : Bytes, (Rfc.toByte oid 4 ++ x).drop oidLen = x := fun x => List.drop_left' (toByte_length _ _)
  rw [apiOpenIn, Key.pk, readOid_toByte (by omega)]
  simp only [Option.bind_eq_bind, Option.bind_some, hp, hH, t1]

theorem put_over {mem x y : Bytes} {a : Nat} (h : a + x.length ≤ mem.length) (hl : y.length = x.length) :
    put (put mem a x) a y = put mem a y := by
  apply List.ext_getElem?
  intro i
  rw [put_get (by rw [put_length h]; omega), put_get h, put_get (by omega)]
  by_cases h1 : i < a
  · simp [h1]
  · by_cases h2 : i < a + y.length
    · simp [h1, h2]
    · simp [h1, h2, ← hl]

theorem at_take (mem : Bytes) (a k l : Nat) (h : k ≤ l) : (at_ mem a l).take k = at_ mem a k := by
  rw [at_, at_, List.take_take, Nat.min_eq_left h]

/-- The memory after the hash prefix has been stored, seen from the output buffer. -/
theorem mem2_eq (mem msg D : Bytes) (m s c mlen : Nat) (hm : m + (s + mlen) ≤ mem.length) (hmsg : msg.length = mlen)
    (hD : c + D.length = s) :
    put (put mem (m + s) msg) (m + c) D = put mem m (at_ mem m c ++ D ++ msg) := by
  have hl : (at_ mem m c).length = c := at_length (by omega)
  apply List.ext_getElem?
  intro i
  rw [put_get (by rw [put_length] <;> omega), put_get (by omega), put_get (by simp only [List.length_append]; omega)]
  simp only [List.length_append, hl]
  by_cases h1 : i < m
  · rw [if_pos (by omega), if_pos (by omega), if_pos h1]
  · rw [if_neg h1]
    by_cases h2 : i < m + c
    · rw [if_pos h2, if_pos (by omega), if_pos (by omega), List.append_assoc, List.getElem?_append_left (by omega), at_get,
        if_pos (by omega)]
      congr 1; omega
    · rw [if_neg h2]
      by_cases h3 : i < m + c + D.length
      · rw [if_pos h3, if_pos (by omega), List.getElem?_append_left (by simp only [List.length_append]; omega),
          List.getElem?_append_right (by omega), hl]
        congr 1; omega
      · rw [if_neg h3, if_neg (by omega)]
        by_cases h4 : i < m + s + msg.length
        · rw [if_pos h4, if_pos (by omega), List.getElem?_append_right (by simp only [List.length_append]; omega)]
          simp only [List.length_append, hl]
          congr 1; omega
        · rw [if_neg h4, if_neg (by omega)]

end Alias
open Alias

/-- **C64 (opening, separate buffers).**  When the output buffer and the signed message do not overlap, open does what it
does on two buffers, whatever else is in the memory, and touches no byte outside `m[0 .. smlen)`. -/
theorem C64_open_disjoint (hp : f.parse oid = some p) (k : Key) (hr : k.root.length = p.n) (hps : k.pubSeed.length = p.n)
    (mem : Bytes) (m l0 sm mlen : Nat) (h64 : p.sig_bytes + mlen < 2 ^ 64)
    (hsm : sm + (p.sig_bytes + mlen) ≤ mem.length) (hm : m + (p.sig_bytes + mlen) ≤ mem.length)
    (hd : m + (p.sig_bytes + mlen) ≤ sm ∨ sm + (p.sig_bytes + mlen) ≤ m) :
    ∃ r, f.signOpen P (at_ mem m (p.sig_bytes + mlen)) l0 (at_ mem sm (p.sig_bytes + mlen)) (p.sig_bytes + mlen) (k.pk oid) =
        some r ∧
      apiOpenIn P f.parse mem m l0 sm (p.sig_bytes + mlen) (k.pk oid) = some { r with m := put mem m r.m } := by
  obtain ⟨g, hskb, ho, H, hH⟩ := Family.facts (P := P) hp
  have hHl := Family.hash_length hp hH
  have hfit := g.prefix_fits
  have hsig := g.sig_eq'
  have t1 : ∀ x : Bytes, (Rfc.toByte oid 4 ++ x).drop oidLen = x := fun x => List.drop_left' (toByte_length _ _)
  set sig := at_ mem sm p.sig_bytes with hsg
  set msg := at_ mem (sm + p.sig_bytes) mlen with hmsg
  have hsgl : sig.length = p.sig_bytes := at_length (by omega)
  have hmsgl : msg.length = mlen := at_length (by omega)
  have hml : (at_ mem m (p.sig_bytes + mlen)).length = p.sig_bytes + mlen := at_length hm
  have hsmw : at_ mem sm (p.sig_bytes + mlen) = sig ++ msg ++ [] := by
    rw [List.append_nil, at_add _ _ _ _ (by omega)]
  obtain ⟨mbuf, hb, hbe, hc⟩ := coreSignOpen_eq g hHl k.root k.pubSeed [] sig msg [] (at_ mem m (p.sig_bytes + mlen)) [] hr hps
    hsgl (by omega) (by omega)
  rw [apiOpenIn_eq hp hH, openIn_core g hHl k.root k.pubSeed mem m sm mlen hr hps h64 hsm hm (by omega) (by omega)]
  rw [Family.signOpen_eq, apiOpen, Key.pk, readOid_toByte (by omega)]
  simp only [Option.bind_eq_bind, Option.bind_some, hp, hH, t1]
  rw [hsmw]
  rw [hmsgl, List.append_nil (at_ mem m _), List.append_nil (k.root ++ k.pubSeed)] at hc
  rw [hc]
  refine ⟨_, rfl, ?_⟩
  have e1 : at_ (put mem (m + p.sig_bytes) msg) (sm + p.index_bytes) p.n = at_ sig p.index_bytes p.n := by
    rw [at_put_disj (by omega) (by omega), hsg, at_at _ _ _ _ _ (by omega)]
  have e0 : at_ mem sm p.index_bytes = at_ sig 0 p.index_bytes := by
    rw [hsg, at_at _ _ _ _ _ (by omega), Nat.add_zero]
  rw [e1, e0]
  set D := prefixOf p (at_ sig p.index_bytes p.n) k.root (Rfc.toNat (at_ sig 0 p.index_bytes)) with hD
  have hDl : D.length = p.padding_len + 3 * p.n := prefixOf_length (at_length (by omega)) hr
  rw [show m + p.sig_bytes - p.padding_len - 3 * p.n = m + (p.sig_bytes - p.padding_len - 3 * p.n) by omega,
    mem2_eq mem msg D m p.sig_bytes _ mlen hm hmsgl (by omega)]
  have hbe' : mbuf = at_ mem m (p.sig_bytes - p.padding_len - 3 * p.n) ++ D := by
    rw [hbe, at_take _ _ _ _ (by omega)]; rfl
  rw [← hbe']
  have hwl : (mbuf ++ msg).length = p.sig_bytes + mlen := by simp only [List.length_append]; omega
  have hp1 : (put mem m (mbuf ++ msg)).length = mem.length := put_length (by omega)
  have e2 : at_ (put mem m (mbuf ++ msg)) (sm + p.index_bytes + p.n) (p.d * ((p.wots_len + p.tree_height) * p.n)) =
      at_ sig (p.index_bytes + p.n) (p.d * ((p.wots_len + p.tree_height) * p.n)) := by
    rw [at_put_disj (by omega) (by omega), hsg, at_at _ _ _ _ _ (by omega), Nat.add_assoc]
  rw [e2, ← verifyRoot_eq g _ _ _ _ hsgl]
  have e3 : at_ (put mem m (mbuf ++ msg)) (sm + p.sig_bytes) mlen = msg := at_put_disj (by omega) (by omega)
  have e4 : ∀ x : Bytes, x.length = mlen →
      put (put mem m (mbuf ++ msg)) m x = put mem m (x ++ (mbuf ++ msg).drop mlen ++ []) := by
    intro x hx
    have := put_at (mem := put mem m (mbuf ++ msg)) (x := x) (a := m) (b := 0) (l := p.sig_bytes + mlen) (by omega) (by omega)
    rw [Nat.add_zero, at_put_same (by omega) hwl.symm] at this
    rw [this, put_over (by omega) (by rw [put_length] <;> omega)]
    simp [put, hx]
  by_cases h : (suiteOf p H).verifyRoot k.root k.pubSeed msg sig = k.root
  · rw [if_pos h, if_pos h, memcpyIn_put (by omega) (by omega) (by omega), e3, e4 _ hmsgl]
    rfl
  · rw [if_neg h, if_neg h, e4 _ (by simp)]

/-- What open, called in place, verifies instead of the signature `sig`: the last bytes of the signature are overwritten by
the prefix of the message hash before they are read. -/
def Alias.altered (p : Params) (root sig : Bytes) : Bytes :=
  sig.take (p.sig_bytes - p.padding_len - 3 * p.n) ++
    prefixOf p (at_ sig p.index_bytes p.n) root (Rfc.toNat (sig.take p.index_bytes))

/-- **C65 (opening in place).**  `m == sm`: what is verified is not the signature but `altered`, whose last authentication
path nodes are the hash prefix. -/
theorem C65_open_in_place (hp : f.parse oid = some p) (hH : coreHash P p.func p.n = some H) (k : Key)
    (hr : k.root.length = p.n) (hps : k.pubSeed.length = p.n)
    (mem : Bytes) (l0 sm mlen : Nat) (h64 : p.sig_bytes + mlen < 2 ^ 64)
    (hsm : sm + (p.sig_bytes + mlen) ≤ mem.length) :
    let sig := at_ mem sm p.sig_bytes
    let msg := at_ mem (sm + p.sig_bytes) mlen
    let sig' := altered p k.root sig
    (¬ (suiteOf p H).verify k.root k.pubSeed msg sig' →
      apiOpenIn P f.parse mem sm l0 sm (p.sig_bytes + mlen) (k.pk oid) =
        some { ret := -1, m := put (put mem sm (sig' ++ msg)) sm (List.replicate mlen 0), mlen := 0 }) ∧
    ((suiteOf p H).verify k.root k.pubSeed msg sig' → mlen ≤ p.sig_bytes →
      apiOpenIn P f.parse mem sm l0 sm (p.sig_bytes + mlen) (k.pk oid) =
        some { ret := 0, m := put (put mem sm (sig' ++ msg)) sm msg, mlen := mlen }) ∧
    ((suiteOf p H).verify k.root k.pubSeed msg sig' → p.sig_bytes < mlen →
      apiOpenIn P f.parse mem sm l0 sm (p.sig_bytes + mlen) (k.pk oid) = none) := by
  intro sig msg sig'
  obtain ⟨g, hskb, ho, _⟩ := Family.facts (P := P) hp
  have hHl := Family.hash_length hp hH
  have hfit := g.prefix_fits
  have hsig := g.sig_eq'
  have hsgl : sig.length = p.sig_bytes := at_length (by omega)
  have hmsgl : msg.length = mlen := at_length (by omega)
  have hmain := openIn_core g hHl k.root k.pubSeed mem sm sm mlen hr hps h64 hsm hsm (Or.inl rfl) (by omega)
  have e1 : at_ (put mem (sm + p.sig_bytes) msg) (sm + p.index_bytes) p.n = at_ sig p.index_bytes p.n := by
    rw [at_put_disj (by omega) (by omega)]; exact (at_at _ _ _ _ _ (by omega)).symm
  have e0 : at_ mem sm p.index_bytes = sig.take p.index_bytes := (at_take _ _ _ _ (by omega)).symm
  have em : at_ mem (sm + p.sig_bytes) mlen = msg := rfl
  simp only [em] at hmain
  rw [e1, e0] at hmain
  set D := prefixOf p (at_ sig p.index_bytes p.n) k.root (Rfc.toNat (sig.take p.index_bytes)) with hD
  have hDl : D.length = p.padding_len + 3 * p.n := prefixOf_length (at_length (by omega)) hr
  have hcl : (sig.take (p.sig_bytes - p.padding_len - 3 * p.n)).length = p.sig_bytes - p.padding_len - 3 * p.n := by
    rw [List.length_take]; omega
  have hs'e : sig' = sig.take (p.sig_bytes - p.padding_len - 3 * p.n) ++ D := rfl
  have hs'l : sig'.length = p.sig_bytes := by rw [hs'e, List.length_append]; omega
  rw [show sm + p.sig_bytes - p.padding_len - 3 * p.n = sm + (p.sig_bytes - p.padding_len - 3 * p.n) by omega,
    mem2_eq mem msg D sm p.sig_bytes _ mlen hsm hmsgl (by omega)] at hmain
  have ew : at_ mem sm (p.sig_bytes - p.padding_len - 3 * p.n) = sig.take (p.sig_bytes - p.padding_len - 3 * p.n) :=
    (at_take _ _ _ _ (by omega)).symm
  rw [ew, ← hs'e] at hmain
  have hwl : (sig' ++ msg).length = p.sig_bytes + mlen := by simp only [List.length_append]; omega
  have hp1 : (put mem sm (sig' ++ msg)).length = mem.length := put_length (by omega)
  have hwin : at_ (put mem sm (sig' ++ msg)) sm (p.sig_bytes + mlen) = sig' ++ msg := at_put_same (by omega) hwl.symm
  have hin : ∀ b l, b + l ≤ p.sig_bytes + mlen → at_ (put mem sm (sig' ++ msg)) (sm + b) l = at_ (sig' ++ msg) b l := by
    intro b l hbl
    rw [← at_at _ _ _ _ (p.sig_bytes + mlen) hbl, hwin]
  have hin' : ∀ b l, b + l ≤ p.sig_bytes → at_ (sig' ++ msg) b l = at_ sig' b l := by
    intro b l hbl
    rw [at_, at_, List.drop_append_of_le_length (by omega), List.take_append_of_le_length (by simp; omega)]
  have hpre : ∀ b l, b + l ≤ p.sig_bytes - p.padding_len - 3 * p.n → at_ sig' b l = at_ sig b l := by
    intro b l hbl
    rw [hs'e, at_, at_, List.drop_append_of_le_length (by omega), List.take_append_of_le_length (by simp; omega),
      List.drop_take, List.take_take, Nat.min_eq_left (by omega)]
  have e2 : at_ (put mem sm (sig' ++ msg)) (sm + p.index_bytes + p.n) (p.d * ((p.wots_len + p.tree_height) * p.n)) =
      at_ sig' (p.index_bytes + p.n) (p.d * ((p.wots_len + p.tree_height) * p.n)) := by
    rw [Nat.add_assoc, hin _ _ (by omega), hin' _ _ (by omega)]
  have ei : sig.take p.index_bytes = at_ sig' 0 p.index_bytes := by
    rw [hpre _ _ (by omega)]; rfl
  rw [e2, ei, ← hpre p.index_bytes p.n (by omega), ← verifyRoot_eq g _ _ _ _ hs'l, ← apiOpenIn_eq (P := P) hp hH k mem sm l0 sm] at hmain
  rw [hmain]
  have e3 : at_ (put mem sm (sig' ++ msg)) (sm + p.sig_bytes) mlen = msg := by
    rw [hin _ _ (by omega), at_, List.drop_left' hs'l, List.take_of_length_le (by omega)]
  refine ⟨fun h => ?_, fun h hl => ?_, fun h hl => ?_⟩ <;> rw [Rfc.Suite.verify] at h
  · rw [if_neg h]
  · rw [if_pos h, memcpyIn_put (by omega) (by omega) (by omega), e3]; rfl
  · rw [if_pos h, memcpyIn_none (by omega) (by have := g.prefix_fits; have := g.n_pos; omega)]; rfl

/-- **C65 (opening in place, honest signatures).**  A signed message made by an honest key is accepted in place only if the
overwritten signature happens to be the same bytes, or the hash function has been broken (one of the events of C58). -/
theorem C65_in_place_rejects (hp : f.parse oid = some p) (hH : coreHash P p.func p.n = some H) (pk0 sk0 : Bytes)
    (hpk : pk0.length = 4 + p.pk_bytes) (hsk : sk0.length = 4 + p.sk_bytes) (seed : Nat → Bytes)
    (hs : (seed p.n).length = 3 * p.n) :
    ∃ k : Key, k.Valid p ∧ f.keypair P pk0 sk0 oid seed = some (0, k.pk oid, k.sk p oid 0) ∧
      ∀ cs, Sized p cs → cs.length ≤ 2 ^ p.full_height - 1 → ∃ outs, signAll P f (k.sk p oid 0) cs = some outs ∧
        ∀ (j : Nat) (o : SignOut) (c : Call), outs[j]? = some o → cs[j]? = some c → p.sig_bytes + c.msg.length < 2 ^ 64 →
        ∀ (mem : Bytes) (sm l0 : Nat) (r : OpenOut), sm + o.sm.length ≤ mem.length → at_ mem sm o.sm.length = o.sm →
          apiOpenIn P f.parse mem sm l0 sm (p.sig_bytes + c.msg.length) (k.pk oid) = some r → r.ret = 0 →
          let sig := o.sm.take p.sig_bytes
          altered p k.root sig = sig ∨ Broken p H k (cs.map (·.msg)) (altered p k.root sig) c.msg := by
  obtain ⟨g, hskb, ho, _⟩ := Family.facts (P := P) hp
  have hHl := Family.hash_length hp hH
  have hfit := g.prefix_fits
  obtain ⟨k, hv, hh, _, hk⟩ := keypair_key hp hH pk0 sk0 hpk hsk seed hs
  refine ⟨k, hv, hk, ?_⟩
  intro cs hcs hlen
  refine ⟨_, signAll_eq hp hH cs 0 k hv (by positivity) hcs, ?_⟩
  intro j o c hoj hcj h64 mem sm l0 r hin hat hr hret
  have hjl := (List.getElem?_eq_some_iff.mp hcj).1
  rw [List.getElem?_mapIdx, hcj, Option.map_some, stateAfter_lt _ (by omega), Option.some.injEq] at hoj
  have hsm : o.sm = (suiteOf p H).sign k.skSeed k.skPrf k.root k.pubSeed j c.msg ++ c.msg := by
    rw [← hoj, outcome]
    simp only [if_pos (show j < 2 ^ p.full_height - 1 by omega)]
  set sig0 := (suiteOf p H).sign k.skSeed k.skPrf k.root k.pubSeed j c.msg with hsig0
  have hl0 : sig0.length = p.sig_bytes := sign_length g hHl _ _ _ _ _ _
  have hol : o.sm.length = p.sig_bytes + c.msg.length := by rw [hsm, List.length_append, hl0]
  intro sig
  have hsig : sig = sig0 := by simp only [sig, hsm]; exact List.take_left' hl0
  rw [hsig]
  rw [hol] at hat hin
  have es : at_ mem sm p.sig_bytes = sig0 := by
    rw [← at_take mem sm p.sig_bytes (p.sig_bytes + c.msg.length) (by omega), hat]; exact hsig
  have em : at_ mem (sm + p.sig_bytes) c.msg.length = c.msg := by
    rw [← at_at mem sm p.sig_bytes c.msg.length (p.sig_bytes + c.msg.length) (by omega), hat, hsm, at_, List.drop_left' hl0,
      List.take_length]
  obtain ⟨a1, a2, a3⟩ := C65_open_in_place (f := f) (P := P) hp hH k hv.root hv.pubSeed mem l0 sm c.msg.length h64 (by omega)
  rw [es, em] at a1 a2 a3
  have hver : (suiteOf p H).verify k.root k.pubSeed c.msg (altered p k.root sig0) := by
    by_contra hn
    rw [a1 hn] at hr
    cases hr
    simp at hret
  by_cases heq : altered p k.root sig0 = sig0
  · exact Or.inl heq
  · right
    have hDl : (prefixOf p (at_ sig0 p.index_bytes p.n) k.root (Rfc.toNat (sig0.take p.index_bytes))).length =
        p.padding_len + 3 * p.n := prefixOf_length (at_length (by omega)) hv.root
    have hal : (altered p k.root sig0).length = p.sig_bytes := by
      rw [altered, List.length_append, hDl, List.length_take]; omega
    obtain ⟨r', h1, h2, h3⟩ := C23_open_is_rfc (P := P) hp hH k hv.root hv.pubSeed (altered p k.root sig0) c.msg
      (List.replicate (p.sig_bytes + c.msg.length) 0) l0 hal h64 (by simp)
    have hib : (altered p k.root sig0).take p.index_bytes = Rfc.toByte j p.index_bytes := by
      rw [altered, List.take_append_of_le_length (by rw [List.length_take]; omega), List.take_take,
        Nat.min_eq_left (by omega), hsig0, Rfc.Suite.sign]
      simp only [List.append_assoc]
      exact List.take_left' (toByte_length _ _)
    have hidx : Rfc.toNat ((altered p k.root sig0).take p.index_bytes) = j := by
      rw [hib, toNat_toByte, Nat.mod_eq_of_lt]
      have := g.idx_fits
      omega
    refine strong_reduction hp hH k hv hh cs (by omega) _ c.msg _ l0 r' hal h64 (by simp) h1 (h3.mpr hver) ?_
    intro c' hc'
    rw [hidx] at hc' ⊢
    rw [hcj] at hc'
    cases hc'
    rw [← hsig0]
    intro he
    exact heq (List.append_cancel_right he)

/-- **C65 (opening, the output buffer is the message part).**  `m == sm + sig_bytes`: the right signature is verified, but
the hash prefix is stored over the end of a message longer than `sig_bytes - padding_len - 3n`, and what is returned as the
message is not restored afterwards. -/
theorem C65_open_behind (hp : f.parse oid = some p) (hH : coreHash P p.func p.n = some H) (k : Key)
    (hr : k.root.length = p.n) (hps : k.pubSeed.length = p.n)
    (mem : Bytes) (l0 sm mlen : Nat) (h64 : p.sig_bytes + mlen < 2 ^ 64)
    (hsm : sm + p.sig_bytes + (p.sig_bytes + mlen) ≤ mem.length) (hml : mlen ≤ p.sig_bytes) :
    let sig := at_ mem sm p.sig_bytes
    let msg := at_ mem (sm + p.sig_bytes) mlen
    let room := p.sig_bytes - p.padding_len - 3 * p.n
    ∃ r, apiOpenIn P f.parse mem (sm + p.sig_bytes) l0 sm (p.sig_bytes + mlen) (k.pk oid) = some r ∧
      (¬ (suiteOf p H).verify k.root k.pubSeed msg sig → r.ret = -1 ∧ r.mlen = 0 ∧
        at_ r.m (sm + p.sig_bytes) mlen = List.replicate mlen 0) ∧
      ((suiteOf p H).verify k.root k.pubSeed msg sig → r.ret = 0 ∧ r.mlen = mlen ∧
        at_ r.m (sm + p.sig_bytes) mlen = msg.take room ++
          (prefixOf p (at_ sig p.index_bytes p.n) k.root (Rfc.toNat (sig.take p.index_bytes))).take (mlen - room)) := by
  intro sig msg room
  obtain ⟨g, hskb, ho, _⟩ := Family.facts (P := P) hp
  have hHl := Family.hash_length hp hH
  have hfit := g.prefix_fits
  have hsig := g.sig_eq'
  have hsgl : sig.length = p.sig_bytes := at_length (by omega)
  have hmsgl : msg.length = mlen := at_length (by omega)
  set m := sm + p.sig_bytes with hm
  have hmain := openIn_core g hHl k.root k.pubSeed mem m sm mlen hr hps h64 (by omega) hsm (by omega) (by omega)
  have e1 : at_ (put mem (m + p.sig_bytes) msg) (sm + p.index_bytes) p.n = at_ sig p.index_bytes p.n := by
    rw [at_put_disj (by omega) (by omega)]; exact (at_at _ _ _ _ _ (by omega)).symm
  have e0 : at_ mem sm p.index_bytes = sig.take p.index_bytes := (at_take _ _ _ _ (by omega)).symm
  have em : at_ mem (sm + p.sig_bytes) mlen = msg := rfl
  simp only [em] at hmain
  rw [e1, e0] at hmain
  set D := prefixOf p (at_ sig p.index_bytes p.n) k.root (Rfc.toNat (sig.take p.index_bytes)) with hD
  have hDl : D.length = p.padding_len + 3 * p.n := prefixOf_length (at_length (by omega)) hr
  rw [show m + p.sig_bytes - p.padding_len - 3 * p.n = m + room by omega,
    mem2_eq mem msg D m p.sig_bytes _ mlen (by omega) hmsgl (by omega)] at hmain
  set W := at_ mem m room ++ D ++ msg with hW
  have hrl : (at_ mem m room).length = room := at_length (by omega)
  have hWl : W.length = p.sig_bytes + mlen := by simp only [hW, List.length_append]; omega
  have hp1 : (put mem m W).length = mem.length := put_length (by omega)
  have e2 : at_ (put mem m W) (sm + p.index_bytes + p.n) (p.d * ((p.wots_len + p.tree_height) * p.n)) =
      at_ sig (p.index_bytes + p.n) (p.d * ((p.wots_len + p.tree_height) * p.n)) := by
    rw [at_put_disj (by omega) (by omega), Nat.add_assoc]; exact (at_at _ _ _ _ _ (by omega)).symm
  have hvr := verifyRoot_eq (H := H) g k.root k.pubSeed msg sig hsgl
  have et : at_ sig 0 p.index_bytes = sig.take p.index_bytes := rfl
  rw [et] at hvr
  rw [e2, ← hvr, ← apiOpenIn_eq (P := P) hp hH k mem m l0 sm] at hmain
  by_cases h : (suiteOf p H).verifyRoot k.root k.pubSeed msg sig = k.root
  · rw [if_pos h, memcpyIn_self (by omega)] at hmain
    refine ⟨_, hmain, fun hn => absurd h hn, fun _ => ⟨rfl, rfl, ?_⟩⟩
    show at_ (put mem m W) m mlen = _
    rw [← at_take (put mem m W) m mlen (p.sig_bytes + mlen) (by omega), at_put_same (by omega) hWl.symm, hW,
      List.append_assoc, List.take_append, hrl, List.take_append_of_le_length (by omega)]
    congr 1
    by_cases hc : mlen ≤ room
    · rw [at_take _ _ _ _ hc, List.take_of_length_le (by omega)]
    · rw [List.take_of_length_le (by omega)]
      exact (at_take _ _ _ _ (by omega)).symm
  · rw [if_neg h] at hmain
    refine ⟨_, hmain, fun _ => ⟨rfl, rfl, ?_⟩, fun hn => absurd hn h⟩
    exact at_put_same (by simp; omega) (by simp)

theorem Alias.pad_ge (hp : f.parse oid = some p) : 2 ≤ p.padding_len := by
  have key : ∀ e ∈ Registry.xmss ++ Registry.xmssmt, 2 ≤ e.pad := by decide +kernel
  cases f with
  | xmss =>
    obtain ⟨e, he, _, rfl⟩ := xmss_parse_entry hp
    exact key e (List.mem_append.mpr (Or.inl he))
  | xmssmt =>
    obtain ⟨e, he, _, rfl⟩ := xmssmt_parse_entry hp
    exact key e (List.mem_append.mpr (Or.inr he))

theorem Alias.toByte_head {k : Nat} (hk : 2 ≤ k) : (Rfc.toByte 2 k)[0]? = some 0 := by
  obtain ⟨j, rfl⟩ : ∃ j, k = j + 2 := ⟨k - 2, by omega⟩
  have h1 : 2 / 256 ^ (j + 1) = 0 := by
    apply Nat.div_eq_of_lt
    have : 256 ^ 1 ≤ 256 ^ (j + 1) := Nat.pow_le_pow_right (by omega) (by omega)
    omega
  simp [Rfc.toByte, List.range_succ_eq_map, h1]

/-- **C65 (opening, refuted for `m == sm + sig_bytes`).**  A valid signed message with a message between
`sig_bytes - padding_len - 3n` and `sig_bytes` bytes is accepted, and the message returned is not the signed one as soon as
its byte number `sig_bytes - padding_len - 3n` is not zero. -/
theorem C65_behind_fails (hp : f.parse oid = some p) (hH : coreHash P p.func p.n = some H) (k : Key)
    (hr : k.root.length = p.n) (hps : k.pubSeed.length = p.n)
    (mem : Bytes) (l0 sm mlen : Nat) (h64 : p.sig_bytes + mlen < 2 ^ 64)
    (hsm : sm + p.sig_bytes + (p.sig_bytes + mlen) ≤ mem.length) (hml : mlen ≤ p.sig_bytes)
    (hlong : p.sig_bytes - p.padding_len - 3 * p.n < mlen)
    (hok : (suiteOf p H).verify k.root k.pubSeed (at_ mem (sm + p.sig_bytes) mlen) (at_ mem sm p.sig_bytes))
    (hbyte : (at_ mem (sm + p.sig_bytes) mlen)[p.sig_bytes - p.padding_len - 3 * p.n]? ≠ some 0) :
    ∃ r, apiOpenIn P f.parse mem (sm + p.sig_bytes) l0 sm (p.sig_bytes + mlen) (k.pk oid) = some r ∧ r.ret = 0 ∧
      r.mlen = mlen ∧ at_ r.m (sm + p.sig_bytes) mlen ≠ at_ mem (sm + p.sig_bytes) mlen := by
  obtain ⟨r, h1, _, h3⟩ := C65_open_behind (f := f) (P := P) hp hH k hr hps mem l0 sm mlen h64 hsm hml
  obtain ⟨b1, b2, b3⟩ := h3 hok
  obtain ⟨g, hskb, ho, _⟩ := Family.facts (P := P) hp
  refine ⟨r, h1, b1, b2, ?_⟩
  intro he
  rw [b3] at he
  apply hbyte
  rw [← he]
  have hmsgl : (at_ mem (sm + p.sig_bytes) mlen).length = mlen := at_length (by omega)
  have hpad := pad_ge hp
  rw [List.getElem?_append_right (by rw [List.length_take]; omega), List.length_take, hmsgl,
    Nat.min_eq_left (by omega), Nat.sub_self, List.getElem?_take_of_lt (by omega), prefixOf, List.append_assoc, List.append_assoc,
    List.getElem?_append_left (by rw [toByte_length]; omega)]
  exact toByte_head hpad

/-- The hypotheses of `C65_behind_fails` are met by the signatures of every honest key: any index, any message of the right
length whose byte number `sig_bytes - padding_len - 3n` is not zero. -/
theorem C65_behind_fails_honest (hp : f.parse oid = some p) (hH : coreHash P p.func p.n = some H) (k : Key) (hv : k.Valid p)
    (hh : k.Honest (suiteOf p H)) (idx : Nat) (hidx : idx < 2 ^ p.full_height) (msg : Bytes)
    (h1 : p.sig_bytes - p.padding_len - 3 * p.n < msg.length) (h2 : msg.length ≤ p.sig_bytes)
    (hbyte : msg[p.sig_bytes - p.padding_len - 3 * p.n]? ≠ some 0) (l0 : Nat) :
    let sig := (suiteOf p H).sign k.skSeed k.skPrf k.root k.pubSeed idx msg
    let mem := sig ++ msg ++ List.replicate p.sig_bytes 0
    ∃ r, apiOpenIn P f.parse mem p.sig_bytes l0 0 (p.sig_bytes + msg.length) (k.pk oid) = some r ∧ r.ret = 0 ∧
      r.mlen = msg.length ∧ at_ r.m p.sig_bytes msg.length ≠ msg := by
  intro sig mem
  obtain ⟨g, hskb, ho, _⟩ := Family.facts (P := P) hp
  have hHl := Family.hash_length hp hH
  have hl : sig.length = p.sig_bytes := sign_length g hHl _ _ _ _ _ _
  have hlt := g.sig_lt
  have em : at_ mem p.sig_bytes msg.length = msg := at_append _ _ _ hl.symm rfl
  have es : at_ mem 0 p.sig_bytes = sig := by
    show at_ (sig ++ msg ++ _) 0 _ = _
    rw [at_, List.drop_zero, List.append_assoc, List.take_left' hl]
  obtain ⟨r, a, b, c, d⟩ := C65_behind_fails (P := P) hp hH k hv.root hv.pubSeed mem l0 0 msg.length (by omega)
    (by simp only [mem, List.length_append, List.length_replicate, hl]; omega) h2 h1
    (by
      rw [Nat.zero_add, em, es, Rfc.Suite.verify, verifyRoot_sign g hHl _ _ _ _ _ _ (by have := g.idx_fits; omega),
        Nat.div_eq_of_lt hidx]
      exact hh.symm)
    (by rw [Nat.zero_add, em]; exact hbyte)
  rw [Nat.zero_add, em] at d
  rw [Nat.zero_add] at a
  exact ⟨r, a, b, c, d⟩

/-- Such messages exist for XMSS-SHA2_10_256: 2400 bytes 07. -/
example : ∃ p, Family.xmss.parse 1 = some p ∧ p.sig_bytes - p.padding_len - 3 * p.n < 2400 ∧ 2400 ≤ p.sig_bytes := by
  refine ⟨_, rfl, ?_, ?_⟩ <;> decide +kernel

end Xmss
