import Verif.Model.SignThreads
import Verif.Model.FastCore
import Verif.Spec.Keys
/-
A sign call that is cut off at any moment (power failure, kill) while the secret key and the output buffer are in persistent memory:
the bytes written so far stay, the rest of the call never happens, and the next call starts from what is there.

The simple implementation is the thread of `Model/SignThreads.lean`, alone; the fast implementation is the machine below.  In both,
every write to the index of the key and every byte of the deletion of the key is a step of its own, in the order of the C code; the
bytes are assumed to become persistent in that order.  Inside the part of the call that computes the signature nothing is assumed
about the order or the values of the writes: at a crash there the signed message buffer is arbitrary, and for the fast
implementation so is the part of the key that holds the traversal state (the nodes of the state are pointers into the key).
-/
namespace Xmss

/-- What is left by a sign call, complete or not (xmss_core.c:183-273, xmss_core_fast.c:584-720, 785-988): the key without the OID
and the `sm` buffer, before and after; the return value if the call got so far. -/
structure SignEvent where
  before : Bytes
  sm0 : Bytes
  m : Bytes
  after : Bytes
  sm : Bytes
  ret : Option Int
deriving DecidableEq, Repr

/-! ### The simple implementation -/

/-- `j` steps of `xmssmt_core_sign`, xmss_core.c:183-273, running alone. -/
def signSteps (H : Bytes → Bytes) (p : Params) : (j : Nat) → Bytes × SignThread → Option (Bytes × SignThread)
  | 0, w => some w
  | j + 1, w => (signThreadStep H p w.1 w.2).bind (signSteps H p j)

/-- The return value, if the function has returned (xmss_core.c:228, 272). -/
def SignPc.ret : SignPc → Option Int
  | .done r => some r
  | _ => none

/-- A call of `xmssmt_core_sign`, xmss_core.c:183-273, cut off somewhere (or not at all). -/
inductive SimpleEvent (H : Bytes → Bytes) (p : Params) : SignEvent → Prop
  /-- between two steps, or after the last -/
  | between {sk sm m : Bytes} {j : Nat} {w : Bytes × SignThread} (h : signSteps H p j (sk, ⟨.start, sm, m⟩) = some w) :
      SimpleEvent H p ⟨sk, sm, m, w.1, w.2.sm, w.2.pc.ret⟩
  /-- inside lines 241-270, which write to `sm` only -/
  | inside {sk sm m : Bytes} {j : Nat} {w : Bytes × SignThread} {idx : Nat} {sm' : Bytes}
      (h : signSteps H p j (sk, ⟨.start, sm, m⟩) = some w) (hpc : w.2.pc = .signing idx) (hl : sm'.length = sm.length) :
      SimpleEvent H p ⟨sk, sm, m, w.1, sm', none⟩

/-! ### The fast implementation -/

/-- Where a call is in `xmss_core_sign` / `xmssmt_core_sign`, xmss_core_fast.c:584-720, 785-988.  `idx` is the local variable. -/
inductive FastPc
  /-- before line 599 / 817 -/
  | start
  /-- lines 618-619 / 839-840: `j` bytes of the key are deleted -/
  | wiping (idx j : Nat)
  /-- lines 639-642 / 852-854: the first `j` bytes of the index are written -/
  | writing (idx j : Nat)
  /-- lines 643-719 / 855-986 -/
  | signing (idx : Nat)
  /-- returned -/
  | done (ret : Int)
deriving DecidableEq, Repr

/-- `xmss_core_sign` / `xmssmt_core_sign`, xmss_core_fast.c:584-720, 785-988, in the middle: the key, the caller's `sm` and
`*smlen`, the message, the local copy of the traversal state, and the number of leaves computed (a ghost counter). -/
structure FastCall where
  pc : FastPc
  sk : Bytes
  sm : Bytes
  smlen : Nat
  m : Bytes
  states : List BdsState
  sigs : List Bytes
  leaves : Nat

/-- The return value, if the function has returned (xmss_core_fast.c:621, 719, 842, 987). -/
def FastPc.ret : FastPc → Option Int
  | .done r => some r
  | _ => none

/-- The rest of the call after the index is stored, xmss_core_fast.c:643-719 (XMSS) and 855-986 (XMSS^MT).  The functions used here
start a few lines earlier and write the (same) index again. -/
def fastSignRest (f : Family) (H : Bytes → Bytes) (p : Params) (c : FastCall) (idx : Nat) : Option FastOut :=
  match f with
  | .xmss => do
    let s ← c.states[0]?
    fastXmssSignBody H p c.sk c.sm c.m s c.sigs idx
  | .xmssmt => fastXmssmtSignBody H p c.sk c.sm c.m c.states c.sigs idx

/-- One step of `xmss_core_sign` / `xmssmt_core_sign`, xmss_core_fast.c:584-720, 785-988; `none` is undefined behaviour.  The XMSS
function has four index bytes written out (lines 602, 639-642), as has every XMSS parameter set. -/
def fastCallStep (f : Family) (H : Bytes → Bytes) (p : Params) (c : FastCall) : Option FastCall :=
  match c.pc with
  | .start =>
    if 31 ≤ p.tree_height then none
    else do
    let ds ← deserializeStates p c.sk
    let idx ← bytesToUll (← rd c.sk 0 p.index_bytes)
    if 64 ≤ p.full_height then none
    else some { c with states := ds.1, sigs := ds.2, pc := if 2 ^ p.full_height - 1 ≤ idx then .wiping idx 0 else .writing idx 0 }
  | .wiping idx j =>
    if j < p.sk_bytes then
      if j < c.sk.length then some { c with sk := c.sk.set j (if j < p.index_bytes then 0xFF else 0), pc := .wiping idx (j + 1) } else none
    else if 2 ^ p.full_height - 1 < idx then some { c with pc := .done (-2) }
    else some { c with states := c.states.map BdsState.wipe, sigs := c.sigs.map fun x => List.replicate x.length 0, pc := .writing idx 0 }
  | .writing idx j =>
    if j < p.index_bytes then
      if j < c.sk.length then
        some { c with sk := c.sk.set j (UInt8.ofNat (((idx + 1) >>> (8 * (p.index_bytes - 1 - j))) &&& 0xff)), pc := .writing idx (j + 1) }
      else none
    else some { c with pc := .signing idx }
  | .signing idx => do
    let o ← fastSignRest f H p c idx
    some { c with sk := o.sk, sm := o.sm, smlen := o.smlen, leaves := o.leaves, pc := .done o.ret }
  | .done _ => some c

/-- `j` steps of `xmss_core_sign` / `xmssmt_core_sign`, xmss_core_fast.c:584-720, 785-988. -/
def fastCallSteps (f : Family) (H : Bytes → Bytes) (p : Params) : (j : Nat) → FastCall → Option FastCall
  | 0, c => some c
  | j + 1, c => (fastCallStep f H p c).bind (fastCallSteps f H p j)

/-- A call of `xmss_core_sign` / `xmssmt_core_sign`, xmss_core_fast.c:584-720, 785-988, before it starts. -/
def fastCallStart (sk sm : Bytes) (smlen0 : Nat) (m : Bytes) : FastCall := ⟨.start, sk, sm, smlen0, m, [], [], 0⟩

/-- A call of `xmss_core_sign` / `xmssmt_core_sign`, xmss_core_fast.c:584-720, 785-988, cut off somewhere (or not at all). -/
inductive FastEvent (f : Family) (H : Bytes → Bytes) (p : Params) : SignEvent → Prop
  /-- between two steps, or after the last -/
  | between {sk sm m : Bytes} {l0 j : Nat} {c : FastCall} (h : fastCallSteps f H p j (fastCallStart sk sm l0 m) = some c) :
      FastEvent f H p ⟨sk, sm, m, c.sk, c.sm, c.pc.ret⟩
  /-- inside lines 643-719 / 855-986, which write to `sm` and to the traversal state in the key only -/
  | inside {sk sm m : Bytes} {l0 j : Nat} {c : FastCall} {idx : Nat} {ext' sm' : Bytes}
      (h : fastCallSteps f H p j (fastCallStart sk sm l0 m) = some c) (hpc : c.pc = .signing idx) (hl : sm'.length = sm.length)
      (hext : p.index_bytes + 4 * p.n + ext'.length = c.sk.length) :
      FastEvent f H p ⟨sk, sm, m, c.sk.take (p.index_bytes + 4 * p.n) ++ ext', sm', none⟩

/-- Sign calls one after another on one key in persistent memory (callers of xmss_core.c:183-273 or xmss_core_fast.c:584-720,
785-988): every call is of the kind `K`, finds the key that the one before has left, and has a buffer of the documented size. -/
def SignHistory (K : SignEvent → Prop) (p : Params) : Bytes → List SignEvent → Prop
  | _, [] => True
  | sk, e :: es => K e ∧ e.before = sk ∧ e.sm0.length = p.sig_bytes + e.m.length ∧ SignHistory K p e.after es

end Xmss
