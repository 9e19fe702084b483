import Verif.Model.LowUi
import Verif.Model.KeygenOs
/-
randombytes.c on the explicit memory of Model/Low.lean, and key generation and the key generation tool with the random
device in place of given seeds.  The device is the one of Model/RandomBytes.lean: the results of `open` and `read` in order.
-/
namespace Xmss.Low

/-- The device as a function finds it, randombytes.c:8-22, 32: `isOpen` is `fd != -1`, `opens` and `reads` are the results to come. -/
structure Device where
  isOpen : Bool
  opens : List Bool
  reads : List ReadResult

/-- Outcome of `randombytes` (randombytes.c:10-41) on memory: still waiting when all results of the device are used up, or returned with the memory
and the results that it did not use. -/
inductive RandL
  | waiting
  | returned (m : Mem) (rest : List ReadResult)
deriving DecidableEq, Repr

/-- `while (xlen > 0) ...`, randombytes.c:24-40.  `read` stores what the device delivers, at most the requested `i` bytes; a
result below 1 is skipped (`sleep` and `continue`). -/
def randomLoopL : List ReadResult → Mem → Ptr → Nat → Option RandL
  | rs, m, _, 0 => some (.returned m rs)
  | [], _, _, _ + 1 => some .waiting
  | none :: rs, m, x, xlen + 1 => randomLoopL rs m x (xlen + 1)
  | some d :: rs, m, x, xlen + 1 =>
    let got := d.take (readRequest (xlen + 1))
    if got.length < 1 then randomLoopL rs m x (xlen + 1)
    else
      match store m x got with
      | none => none
      | some m => randomLoopL rs m (x + got.length) (xlen + 1 - got.length)

/-- `randombytes`, randombytes.c:10-41. -/
def randombytesL (dev : Device) (m : Mem) (x : Ptr) (xlen : Nat) : Option RandL :=
  if dev.isOpen || openLoop dev.opens then randomLoopL dev.reads m x xlen else some .waiting

/-- Outcome of key generation on memory (xmss.c:10-26, 62-75): waiting for the device, or returned with value, memory and the unused results. -/
inductive KeygenL
  | waiting
  | done (ret : Int) (m : Mem) (rest : List ReadResult)
deriving DecidableEq, Repr

/-- `xmss_core_keypair` and `xmssmt_core_keypair`, xmss_core.c:103-110, 168-177. -/
def coreKeypairOs (P : Prims) (p : Params) (dev : Device) (m0 : Mem) (pk sk : Ptr) : Option KeygenL := do
  let (seed, m) ← alloc m0 (w32 (3 * p.n))
  match ← randombytesL dev m seed (w32 (3 * p.n)) with
  | .waiting => some .waiting
  | .returned m rest => do
    let m ← coreSeedKeypair P p m pk sk seed
    some (.done 0 (release m0 m) rest)

/-- The part of `xmss_core_keypair` (xmss_core_fast.c:548-557) or `xmssmt_core_keypair` (741-751) before the first call of
`randombytes`: the traversal states, and memory with the index zeroed. -/
def fastKeypairStartL : Family → Params → Mem → Ptr → Option ((List LState × Ptr) × Mem)
  | .xmss, p, m, sk => do
    if ¬ arraysOk p then none
    else do
    let ds ← deserializeL p m sk
    let s ← ds.1[0]?
    let m ← store m sk [0, 0, 0, 0]
    some (([{ s with stackoffset := 0, nextLeaf := 0 }], ds.2), m)
  | .xmssmt, p, m, sk => do
    if ¬ arraysOk p then none
    else do
    let ds ← deserializeL p m sk
    let m ← store m sk (List.replicate p.index_bytes 0)
    some ((ds.1.map fun s => { s with stackoffset := 0, nextLeaf := 0 }, ds.2), m)

/-- The rest of `xmss_core_keypair` (xmss_core_fast.c:563-574) or `xmssmt_core_keypair` (757-775) after the second call. -/
def fastKeypairEndL (P : Prims) : Family → Params → Mem → Ptr → Ptr → List LState × Ptr → Option Mem
  | .xmss, p, m, pk, sk, ds => do
    let s ← ds.1[0]?
    let m ← memcpy m (pk + p.n) (sk + p.index_bytes + w32 (3 * p.n)) p.n
    let r ← treehashInitL P p m pk s (sk + p.index_bytes) (sk + p.index_bytes + w32 (3 * p.n)) Addr.zero
    let m ← memcpy r.2 (sk + p.index_bytes + w32 (2 * p.n)) pk p.n
    serializeL p m sk [r.1]
  | .xmssmt, p, m, pk, sk, ds => do
    let m ← memcpy m (pk + p.n) (sk + p.index_bytes + w32 (3 * p.n)) p.n
    let r ← fastKeypairLoopL P p pk ds.2 (sk + p.index_bytes) (pk + p.n) (usub p.d 1) 0 ds.1 m (setLayerAddr Addr.zero 0)
    let s ← r.1[usub p.d 1]?
    let t ← treehashInitL P p r.2.1 pk s (sk + p.index_bytes) (pk + p.n) r.2.2
    let m ← memcpy t.2 (sk + p.index_bytes + w32 (2 * p.n)) pk p.n
    serializeL p m sk (r.1.set (usub p.d 1) t.1)

/-- `xmss_core_keypair` (xmss_core_fast.c:538-575) and `xmssmt_core_keypair` (727-776): the two calls of `randombytes` write into the
secret key (559, 562; 753, 756). -/
def fastKeypairOs (P : Prims) (f : Family) (p : Params) (dev : Device) (m : Mem) (pk sk : Ptr) : Option KeygenL := do
  let s ← fastKeypairStartL f p m sk
  match ← randombytesL dev s.2 (sk + p.index_bytes) (w32 (2 * p.n)) with
  | .waiting => some .waiting
  | .returned m rest => do
    match ← randombytesL { isOpen := true, opens := [], reads := rest } m (sk + p.index_bytes + w32 (3 * p.n)) p.n with
    | .waiting => some .waiting
    | .returned m rest => do
      let m ← fastKeypairEndL P f p m pk sk s.1
      some (.done 0 m rest)

/-- `xmss_keypair` / `xmssmt_keypair`, xmss.c:10-26, 62-75, with the core function `core`. -/
def apiKeypairWith (parse : Nat → Option Params) (core : Params → Mem → Ptr → Ptr → Option KeygenL) (dev : Device) (m : Mem)
    (pk sk : Ptr) (oid : Nat) : Option KeygenL :=
  match parse oid with
  | none => some (.done (-1) m dev.reads)
  | some p => do
    let m ← oidWriteLoop pk sk oid oidLen 0 m
    core p m (pk + oidLen) (sk + oidLen)

/-- `xmss_keypair` / `xmssmt_keypair` (xmss.c:10-26, 62-75) linked with xmss_core.c and randombytes.c. -/
def apiKeypairOsL (P : Prims) (f : Family) (dev : Device) := apiKeypairWith f.parse (fun p => coreKeypairOs P p dev) dev

/-- `xmss_keypair` / `xmssmt_keypair` (xmss.c:10-26, 62-75) linked with xmss_core_fast.c and randombytes.c. -/
def apiKeypairFastOsL (P : Prims) (f : Family) (dev : Device) := apiKeypairWith f.parseFast (fun p => fastKeypairOs P f p dev) dev

/-- Outcome of the key generation tool (ui/keypair.c:17-48): waiting for the device, or returned. -/
inductive ToolOut
  | waiting
  | done (run : KeypairRun)
deriving DecidableEq, Repr

/-- ui/keypair.c:17-48, main, with the library functions `parse` and `keypair` and the device. -/
def uiKeypairOsL (parse : Nat → Option Params) (keypair : Device → Mem → Ptr → Ptr → Nat → Option KeygenL) (f : Family) (dev : Device)
    (args : List String) : Option ToolOut :=
  match args with
  | [name] =>
    let oid := (f.strToOid name).getD 0
    match parse oid with
    | none => some (.done { exit := -1, stdout := [] })
    | some p => do
      let (pk, m) ← alloc [] (w32 (oidLen + p.pk_bytes))
      let (sk, m) ← alloc m (w32 (oidLen + p.sk_bytes))
      match ← keypair dev m pk sk oid with
      | .waiting => some .waiting
      | .done _ m _ => do
        let a ← load m pk (w32 (oidLen + p.pk_bytes))
        let b ← load m sk (w32 (oidLen + p.sk_bytes))
        some (.done { exit := 0, stdout := a ++ b })
  | _ => some (.done { exit := -1, stdout := [] })

end Xmss.Low
