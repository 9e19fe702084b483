import Verif.Model.Bytes
/-
Model of randombytes.c.  The operating system is an explicit sequence of results of `open` and `read`.
-/
namespace Xmss

/-- Result of one `read(fd, x, i)`, randombytes.c:32: `none` is a return value below 1 (error or end of file); `some d` makes the bytes
`d` available, of which the kernel stores at most the `i` requested ones. -/
abbrev ReadResult := Option Bytes

/-- Outcome of `randombytes`, randombytes.c:10-41: either all results were used up while the function is still waiting, or the function returned with the
caller's memory `mem`, having made the successful reads `trace` (offset, requested size, stored bytes), and `rest` is
the part of the sequence of results that it did not use.  Undefined behaviour (a store outside the memory) is the
`none` of the `Option` around it. -/
inductive RandomOut
  | waiting
  | returned (mem : Bytes) (trace : List (Nat × Nat × Bytes)) (rest : List ReadResult)
deriving DecidableEq, Repr

/-- The chunk size of one iteration, randombytes.c:25-30. -/
def readRequest (xlen : Nat) : Nat := if xlen < 1048576 then xlen else 1048576

/-- `while (xlen > 0) ...`, randombytes.c:24-40: `x` is the offset of the pointer in the memory `mem`.
`sleep` has no effect on the state. -/
def randomLoop : List ReadResult → Bytes → Nat → Nat → List (Nat × Nat × Bytes) → Option RandomOut
  | rs, mem, _, 0, tr => some (.returned mem tr rs)
  | [], _, _, _ + 1, _ => some .waiting
  | none :: rs, mem, x, xlen + 1, tr => randomLoop rs mem x (xlen + 1) tr
  | some d :: rs, mem, x, xlen + 1, tr =>
    let got := d.take (readRequest (xlen + 1))
    if got.length < 1 then randomLoop rs mem x (xlen + 1) tr
    else
      match wr mem x got with
      | none => none
      | some mem => randomLoop rs mem (x + got.length) (xlen + 1 - got.length)
          (tr ++ [(x, readRequest (xlen + 1), got)])

/-- `for (;;) { fd = open(...); if (fd != -1) break; sleep(1); }`, randombytes.c:14-22: true if some attempt succeeds. -/
def openLoop : List Bool → Bool
  | [] => false
  | true :: _ => true
  | false :: rest => openLoop rest

/-- `randombytes`, randombytes.c:10-41.  `isOpen` is `fd != -1` on entry. -/
def randombytes (isOpen : Bool) (opens : List Bool) (reads : List ReadResult) (mem : Bytes) (x xlen : Nat) :
    Option RandomOut :=
  if isOpen || openLoop opens then randomLoop reads mem x xlen [] else some .waiting

end Xmss
