import Verif.Model.RandomBytes
/-
randombytes.c called by several threads at the same time.  The threads share the static variable `fd` (randombytes.c:8);
each has its own arguments `x`, `xlen` and its own memory.

Simplification: accesses of `fd` are atomic and sequentially consistent (in C11 the unsynchronised accesses of `fd` are a
data race, hence formally undefined; here they do what the machine does for an aligned `int`).  `fd` is only compared with
-1 and passed to `read`; a value other than -1 was returned by a successful `open` and is never closed, so that `true`
(some valid descriptor of the device) and `false` (-1) are enough.
-/
namespace Xmss

/-- Where a thread is in `randombytes`, randombytes.c:10-41: before line 14; before line 16; before line 17; before line 24; returned. -/
inductive RandPc
  | start | opening | check | reading | done
deriving DecidableEq, Repr

/-- A thread in randombytes.c:10-41: the memory its pointer points into, the pointer (as offset) and `xlen`. -/
structure RandThread where
  pc : RandPc
  mem : Bytes
  x : Nat
  xlen : Nat
deriving DecidableEq, Repr

/-- `fd` of randombytes.c:8 (valid or -1), number of successful `open`s so far, the bytes the device has delivered so far with the thread each
piece went to, and the threads. -/
structure RandWorld where
  fd : Bool
  opens : Nat
  log : List (Nat × Bytes)
  th : Nat → RandThread

/-- Replace thread `i` (no counterpart in randombytes.c:10-41). -/
def RandWorld.upd (w : RandWorld) (i : Nat) (t : RandThread) : Nat → RandThread := fun j => if j = i then t else w.th j

/-- One step of thread `i`, randombytes.c:10-41.  `open` and `read` may fail at any time; a `read` with `fd == -1` fails. -/
inductive RandStep : RandWorld → RandWorld → Prop
  /-- line 14 -/
  | test (w : RandWorld) (i : Nat) (h : (w.th i).pc = .start) :
      RandStep w { w with th := w.upd i { w.th i with pc := if w.fd then .reading else .opening } }
  /-- line 16 -/
  | openDev (w : RandWorld) (i : Nat) (ok : Bool) (h : (w.th i).pc = .opening) :
      RandStep w { w with fd := ok, opens := w.opens + ok.toNat, th := w.upd i { w.th i with pc := .check } }
  /-- lines 17-20: reads `fd` again -/
  | check (w : RandWorld) (i : Nat) (h : (w.th i).pc = .check) :
      RandStep w { w with th := w.upd i { w.th i with pc := if w.fd then .reading else .opening } }
  /-- lines 32-36: the read fails, or there is no descriptor -/
  | readFail (w : RandWorld) (i : Nat) (h : (w.th i).pc = .reading) (hx : 0 < (w.th i).xlen) : RandStep w w
  /-- lines 25-39: the device delivers `d` -/
  | readOk (w : RandWorld) (i : Nat) (d mem : Bytes) (h : (w.th i).pc = .reading) (hx : 0 < (w.th i).xlen) (hfd : w.fd = true)
      (hd : 0 < d.length) (hd' : d.length ≤ readRequest (w.th i).xlen) (hw : wr (w.th i).mem (w.th i).x d = some mem) :
      RandStep w { w with log := w.log ++ [(i, d)],
                          th := w.upd i { pc := .reading, mem := mem, x := (w.th i).x + d.length, xlen := (w.th i).xlen - d.length } }
  /-- line 24: `xlen == 0` -/
  | finish (w : RandWorld) (i : Nat) (h : (w.th i).pc = .reading) (hx : (w.th i).xlen = 0) :
      RandStep w { w with th := w.upd i { w.th i with pc := .done } }

/-- Reachable by any schedule of threads in randombytes.c:10-41 and any behaviour of the operating system. -/
inductive RandReach (w0 : RandWorld) : RandWorld → Prop
  | refl : RandReach w0 w0
  | step {w v} : RandReach w0 w → RandStep w v → RandReach w0 v

/-- The bytes that the device delivered to thread `i` (randombytes.c:32). -/
def RandWorld.delivered (w : RandWorld) (i : Nat) : Bytes := ((w.log.filter (fun e => e.1 = i)).map (·.2)).flatten

/-- A `read` of thread `i` (randombytes.c:32) could store outside the thread's memory. -/
def RandWorld.Overrun (w : RandWorld) (i : Nat) : Prop :=
  (w.th i).pc = .reading ∧ 0 < (w.th i).xlen ∧ (w.th i).mem.length < (w.th i).x + readRequest (w.th i).xlen

end Xmss
