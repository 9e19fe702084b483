import Verif.Spec.Keys
/-
Model of the command line tools ui/keypair.c, ui/sign.c and ui/open.c (compiled with xmss_core.c; the family `f` is the
compile-time choice XMSSMT).

Files are byte strings; `none` for a file is a failing `fopen`.  A result of `none` is undefined behaviour: reading
bytes of a buffer that a short `fread` did not fill, or undefined behaviour inside the library.
Not modelled here: the argc checks of sign.c and open.c and failing malloc/fseek/ftell/fwrite (they are in Model/UiErrors.lean), stderr,
stack overflow of the variable length arrays.
`junk k` is the content of a fresh buffer of `k` bytes.
-/
namespace Xmss

/-- Parameter-name parser that the tools call, ui/keypair.c:7-15. -/
def Family.strToOid : Family → String → Option Nat | .xmss => xmssStrToOid | .xmssmt => xmssmtStrToOid

/-- Result of a run of xmss_keypair (ui/keypair.c:17-48): value returned by main, and bytes written to stdout. -/
structure KeypairRun where
  exit : Int
  stdout : Bytes
deriving DecidableEq, Repr

/-- ui/keypair.c:17-48, main; `args` are argv[1], argv[2], ....  The result of `XMSS_STR_TO_OID` is not checked:
for an unknown name `oid` keeps its initial value 0 (lines 20, 30).  The result of `XMSS_KEYPAIR` is ignored (40). -/
def uiKeypair (P : Prims) (f : Family) (junk : Nat → Bytes) (seed : Nat → Bytes) (args : List String) : Option KeypairRun :=
  match args with
  | [name] =>
    let oid := (f.strToOid name).getD 0
    match f.parse oid with
    | none => some { exit := -1, stdout := [] }
    | some p => do
      let r ← f.keypair P (junk (oidLen + p.pk_bytes)) (junk (oidLen + p.sk_bytes)) oid seed
      some { exit := 0, stdout := r.2.1 ++ r.2.2 }
  | _ => some { exit := -1, stdout := [] }

/-- Result of a run of xmss_sign (ui/sign.c:16-102): value returned by main, key-pair file afterwards, bytes written to stdout. -/
structure SignRun where
  exit : Int
  keyFile : Option Bytes
  stdout : Bytes
deriving DecidableEq, Repr

/-- What ui/sign.c:49-87 knows when it calls `XMSS_SIGN`: either it has already returned (-1, line 62 or 75), or
it has the offset of the secret key in the file, the parameters and the secret key.  `fread` of a short file leaves the
buffer uninitialised: `none`. -/
def uiSignRead (f : Family) (keyFile : Bytes) : Option (Option (Nat × Params × Bytes)) := do
  let b ← rd keyFile 0 oidLen
  let oidPk ← bytesToUll b
  match f.parse oidPk with
  | none => some none
  | some pp => do
    let off := oidLen + pp.pk_bytes
    let b ← rd keyFile off oidLen
    let oidSk ← bytesToUll b
    match f.parse oidSk with
    | none => some none
    | some p => do
      let sk ← rd keyFile off (oidLen + p.sk_bytes)
      some (some (off, p, sk))

/-- ui/sign.c:16-102, main, for two file arguments, up to and including normal termination (all buffered output
written).  The return value of `XMSS_SIGN` is ignored (line 89); `smlen` is uninitialised before (line 81, here
`(junk 0).length`; the library sets it for every accepted OID). -/
def uiSign (P : Prims) (f : Family) (junk : Nat → Bytes) (keyFile msgFile : Option Bytes) : Option SignRun :=
  match keyFile with
  | none => some { exit := -1, keyFile := none, stdout := [] }
  | some key =>
    match msgFile with
    | none => some { exit := -1, keyFile := some key, stdout := [] }
    | some m => do
      match ← uiSignRead f key with
      | none => some { exit := -1, keyFile := some key, stdout := [] }
      | some (off, p, sk) =>
        let o ← f.sign P sk (junk (p.sig_bytes + m.length)) (junk 0).length m
        let key ← wr key (off + oidLen) ((o.sk.drop oidLen).take p.sk_bytes)
        let out ← rd o.sm 0 o.smlen
        some { exit := 0, keyFile := some key, stdout := out }

/-- ui/open.c:16-89, main, for two file arguments: the value returned by main.  (stdout carries only the verdict as text.) -/
def uiOpen (P : Prims) (f : Family) (junk : Nat → Bytes) (keyFile smFile : Option Bytes) : Option Int :=
  match keyFile with
  | none => some (-1)
  | some key =>
    match smFile with
    | none => some (-1)
    | some sm => do
      let b ← rd key 0 oidLen
      let oid ← bytesToUll b
      match f.parse oid with
      | none => some (-1)
      | some p => do
        let pk ← rd key 0 (oidLen + p.pk_bytes)
        let o ← f.signOpen P (junk sm.length) (junk 0).length sm sm.length pk
        some o.ret

/-! ### Buffered output and crashes in ui/sign.c -/

/-- The output statements ui/sign.c:91-95 in program order and the return from main (which flushes stdout). -/
inductive StdioOp
  | writeKey | writeOut | closeKey | exit
deriving DecidableEq, Repr

/-- State of the tool after `XMSS_SIGN` (ui/sign.c:91-102): the two files as the outside world sees them, the bytes still in the two stdio
buffers, where the next key byte goes, and the statements still to run. -/
structure IoState where
  keyFile : Bytes
  keyPos : Nat
  keyPend : Bytes
  out : Bytes
  outPend : Bytes
  todo : List StdioOp
deriving DecidableEq, Repr

/-- The program text: ui/sign.c:92, 93, 95, and the end of main (102). -/
def signProgram : List StdioOp := [.writeKey, .writeOut, .closeKey, .exit]

/-- One step of the tool (ui/sign.c:91-102) with the C library.  `newKey`, `sm` are the bytes passed to the two `fwrite`s.
A stream may pass any non-empty part of its buffer on when `mayFlush` allows it for the number of buffered bytes, and it
must empty the buffer for `fclose`/exit. -/
inductive IoStep (mayFlush : Nat → Prop) (newKey sm : Bytes) : IoState → IoState → Prop
  | writeKey (s : IoState) (t) : s.todo = .writeKey :: t →
      IoStep mayFlush newKey sm s { s with keyPend := s.keyPend ++ newKey, todo := t }
  | writeOut (s : IoState) (t) : s.todo = .writeOut :: t →
      IoStep mayFlush newKey sm s { s with outPend := s.outPend ++ sm, todo := t }
  | flushKey (s : IoState) (n) (file : Bytes) : 0 < n → n ≤ s.keyPend.length →
      (mayFlush s.keyPend.length ∨ s.todo.head? = some .closeKey) → wr s.keyFile s.keyPos (s.keyPend.take n) = some file →
      IoStep mayFlush newKey sm s { s with keyFile := file, keyPos := s.keyPos + n, keyPend := s.keyPend.drop n }
  | flushOut (s : IoState) (n) : 0 < n → n ≤ s.outPend.length →
      (mayFlush s.outPend.length ∨ s.todo.head? = some .exit) →
      IoStep mayFlush newKey sm s { s with out := s.out ++ s.outPend.take n, outPend := s.outPend.drop n }
  | closeKey (s : IoState) (t) : s.todo = .closeKey :: t → s.keyPend = [] →
      IoStep mayFlush newKey sm s { s with todo := t }
  | exit (s : IoState) (t) : s.todo = .exit :: t → s.outPend = [] → IoStep mayFlush newKey sm s { s with todo := t }

/-- States that a run can be in (and hence be killed in) at ui/sign.c:91-102. -/
inductive IoReach (mayFlush : Nat → Prop) (newKey sm : Bytes) (s0 : IoState) : IoState → Prop
  | refl : IoReach mayFlush newKey sm s0 s0
  | step {s t} : IoReach mayFlush newKey sm s0 s → IoStep mayFlush newKey sm s t → IoReach mayFlush newKey sm s0 t

/-- State after ui/sign.c:91 (`fseek` back to the secret key, behind its OID), with nothing written yet. -/
def ioStart (keyFile : Bytes) (pos : Nat) : IoState :=
  { keyFile := keyFile, keyPos := pos, keyPend := [], out := [], outPend := [], todo := signProgram }

end Xmss
