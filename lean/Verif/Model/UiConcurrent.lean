import Verif.Model.Ui
/-
Several runs of ui/sign.c on one key file at the same time.  The tool takes no lock (sign.c:36 is a plain `fopen`), so
the operating system may interleave the runs arbitrarily.

Simplification: reading the key file (ui/sign.c:54-87) and writing the secret key back (ui/sign.c:91-95) are one step each; the
finer steps of one run are in Model/Ui.lean (`IoStep`).
-/
namespace Xmss

/-- A step of run number `i`: reading the key file and signing (ui/sign.c:49-89), or writing the secret key back
(ui/sign.c:91-95). -/
inductive ToolEvent
  | read (i : Nat)
  | commit (i : Nat)
deriving DecidableEq, Repr

/-- What a run holds in memory between its two steps (`sk`, `sm`, `smlen` of ui/sign.c:78-81): where the secret key goes in the file, its new bytes, and the bytes
for stdout. -/
structure Pending where
  pos : Nat
  key : Bytes
  out : Bytes
deriving DecidableEq, Repr

/-- The key file, and the memory of each run of ui/sign.c:16-102 (`none`: not started, or ended with an error). -/
structure World where
  file : Bytes
  mem : Nat → Option Pending

/-- ui/sign.c:49-89: what a run computes from the key file it reads. -/
def uiSignCompute (P : Prims) (f : Family) (junk : Nat → Bytes) (key m : Bytes) : Option (Option Pending) := do
  match ← uiSignRead f key with
  | none => some none
  | some (off, p, sk) =>
    let o ← f.sign P sk (junk (p.sig_bytes + m.length)) (junk 0).length m
    let out ← rd o.sm 0 o.smlen
    some (some { pos := off + oidLen, key := (o.sk.drop oidLen).take p.sk_bytes, out := out })

/-- One step of ui/sign.c:49-95; `junk i`, `msg i` are fresh memory and message of run `i`. -/
def toolStep (P : Prims) (f : Family) (junk : Nat → Nat → Bytes) (msg : Nat → Bytes) (w : World) : ToolEvent → Option World
  | .read i => do
    let r ← uiSignCompute P f (junk i) w.file (msg i)
    some { w with mem := fun j => if j = i then r else w.mem j }
  | .commit i =>
    match w.mem i with
    | none => some w
    | some r => do
      let file ← wr w.file r.pos r.key
      some { w with file := file }

/-- An interleaving of steps of runs of ui/sign.c:16-102. -/
def toolSteps (P : Prims) (f : Family) (junk : Nat → Nat → Bytes) (msg : Nat → Bytes) : World → List ToolEvent → Option World
  | w, [] => some w
  | w, e :: es => do
    let w ← toolStep P f junk msg w e
    toolSteps P f junk msg w es

end Xmss
