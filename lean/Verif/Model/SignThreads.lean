import Verif.Model.Api
/-
`xmssmt_core_sign` of the simple implementation (xmss_core.c:183-273) called by several threads at the same time with one secret key in
memory.  The threads share the key buffer; each has its own message and signed message buffer.

Every access of the bytes of the key is a step of its own: `bytes_to_ull` reads them one by one, first byte first (utils.c:26-28),
`ull_to_bytes` writes them one by one, last byte first (utils.c:12-15), `memset` and `memcpy` go upwards.  Simplifications: memory is
sequentially consistent (in C11 the unsynchronised accesses are a data race, hence formally undefined; here they do what byte
accesses of the machine do), and the four seeds, which nothing but the deletion of the key changes, are read in one step.
-/
namespace Xmss

/-- Where a thread is in `xmssmt_core_sign`, xmss_core.c:183-273.  `idx` is the local variable. -/
inductive SignPc
  /-- before line 204 -/
  | start
  /-- line 209: the bytes of the index read so far -/
  | reading (got : Bytes)
  /-- lines 225-226: `j` bytes of the key are deleted -/
  | wiping (idx j : Nat)
  /-- line 233: `j` bytes of the index are copied -/
  | copying (idx j : Nat)
  /-- line 239: the first `j` bytes of the index are still to be written -/
  | writing (idx j : Nat)
  /-- lines 241-270 -/
  | signing (idx : Nat)
  /-- returned -/
  | done (ret : Int)
deriving DecidableEq, Repr

/-- A thread in `xmssmt_core_sign`, xmss_core.c:183-273: its `sm` buffer and its message. -/
structure SignThread where
  pc : SignPc
  sm : Bytes
  m : Bytes
deriving DecidableEq, Repr

/-- `xmssmt_core_sign`, xmss_core.c:241-272: what is computed from the seeds, as in `coreSignBody`; returns the `sm` buffer. -/
def coreSignRest (H : Bytes → Bytes) (p : Params) (skSeed skPrf pubRoot pubSeed sm : Bytes) (mlen idx : Nat) : Option Bytes := do
  let sm ← wr sm p.index_bytes (prf H p (ullToBytes 32 idx) skPrf)
  let R ← rd sm p.index_bytes p.n
  if p.sig_bytes < p.padding_len + 3 * p.n then none
  else
    let hm ← hashMessage H p R pubRoot idx sm (p.sig_bytes - p.padding_len - 3 * p.n) mlen
    signLayers H p skSeed pubSeed p.d 0 idx (setType Addr.zero typeOts) hm.1 hm.2 (p.index_bytes + p.n)

/-- One step of a thread in `xmssmt_core_sign`, xmss_core.c:183-273: the key and the thread afterwards; `none` is undefined behaviour. -/
def signThreadStep (H : Bytes → Bytes) (p : Params) (sk : Bytes) (t : SignThread) : Option (Bytes × SignThread) :=
  match t.pc with
  | .start => do
    let sm ← wr t.sm p.sig_bytes t.m
    some (sk, { t with sm := sm, pc := .reading [] })
  | .reading got =>
    if got.length < p.index_bytes then do
      let b ← sk[got.length]?
      some (sk, { t with pc := .reading (got ++ [b]) })
    else do
      let idx ← bytesToUll got
      if 64 ≤ p.full_height then none
      else if 2 ^ p.full_height - 1 ≤ idx then some (sk, { t with pc := .wiping idx 0 })
      else some (sk, { t with pc := .copying idx 0 })
  | .wiping idx j =>
    if j < p.sk_bytes then
      if j < sk.length then some (sk.set j (if j < p.index_bytes then 0xFF else 0), { t with pc := .wiping idx (j + 1) }) else none
    else if 2 ^ p.full_height - 1 < idx then some (sk, { t with pc := .done (-2) })
    else some (sk, { t with pc := .copying idx 0 })
  | .copying idx j =>
    if j < p.index_bytes then do
      let b ← sk[j]?
      let sm ← wr t.sm j [b]
      some (sk, { t with sm := sm, pc := .copying idx (j + 1) })
    else some (sk, { t with pc := .writing idx p.index_bytes })
  | .writing idx 0 => some (sk, { t with pc := .signing idx })
  | .writing idx (j + 1) =>
    if j < sk.length then
      some (sk.set j (UInt8.ofNat (((idx + 1) >>> (8 * (p.index_bytes - 1 - j))) &&& 0xff)), { t with pc := .writing idx j })
    else none
  | .signing idx => do
    let skSeed ← rd sk p.index_bytes p.n
    let skPrf ← rd sk (p.index_bytes + p.n) p.n
    let pubRoot ← rd sk (p.index_bytes + 2 * p.n) p.n
    let pubSeed ← rd sk (p.index_bytes + 3 * p.n) p.n
    let sm ← coreSignRest H p skSeed skPrf pubRoot pubSeed t.sm t.m.length idx
    some (sk, { t with sm := sm, pc := .done 0 })
  | .done _ => some (sk, t)

/-- Threads in `xmssmt_core_sign`, xmss_core.c:183-273, on one key: `sched` names the thread that makes the next step. -/
def signThreads (H : Bytes → Bytes) (p : Params) : (sched : List Nat) → Bytes × List SignThread → Option (Bytes × List SignThread)
  | [], w => some w
  | i :: sched, (sk, ts) => do
    let t ← ts[i]?
    let r ← signThreadStep H p sk t
    signThreads H p sched (r.1, ts.set i r.2)

end Xmss
