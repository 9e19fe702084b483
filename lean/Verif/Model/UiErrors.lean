import Verif.Model.UiFast
/-
The command line tools once more, with the failures of the C library that the other models leave out: the number of arguments, `fseek`,
`ftell`, `malloc`, `fread` that reads less than the file holds, `fwrite`/`fclose` that store less than they were given.  The tools check
the number of arguments and `fopen` and nothing else.

Kept simplifications: a write error loses everything from the first byte that could not be stored on (a prefix arrives); an `fread` of
the key file that fails leaves the buffers uninitialised and counts as undefined (`none`), as a short key file in Model/Ui.
-/
namespace Xmss

/-- What the system does to a run of ui/sign.c:16-102. -/
structure SignEnv where
  /-- argc - 1, line 29 -/
  args : Nat
  /-- line 36; `none`: `fopen` fails -/
  keyFile : Option Bytes
  /-- line 42 -/
  msgFile : Option Bytes
  /-- whether `fseek` and `ftell` work on the message file, lines 50-51 and 85 (they do not on a pipe) -/
  seekable : Bool
  /-- whether `malloc` succeeds, lines 79, 80 -/
  mallocM : Bool
  mallocSm : Bool
  /-- how many bytes of the message `fread` delivers at most, line 87 -/
  gotM : Nat
  /-- how many bytes of the key reach the file, lines 92, 95 -/
  keyWritten : Nat
  /-- how many bytes reach the standard output, line 93 and the end of main -/
  outWritten : Nat

/-- `mlen`, ui/sign.c:51: `ftell` returns the size of the file, or -1 converted to `unsigned long long`. -/
def ftellSize (seekable : Bool) (m : Bytes) : Nat := if seekable then m.length else 2 ^ 64 - 1

/-- ui/sign.c:16-102, main.  `junk`, `junkM` are the contents of fresh memory for `sm` and for `m` and `smlen0` that of the variable
`smlen`.  A null pointer for `sm`, or for `m` if the message is not empty, is undefined behaviour in `XMSS_SIGN` or before
(`malloc(2^64 - 1)` always fails). -/
def uiSignEnv (read : Bytes → Option (Option (Nat × Params × Bytes))) (sign : Bytes → Bytes → Nat → Bytes → Option SignOut)
    (junk junkM : Nat → Bytes) (smlen0 : Nat) (e : SignEnv) : Option SignRun :=
  if e.args ≠ 2 then some { exit := -1, keyFile := e.keyFile, stdout := [] }
  else
    match e.keyFile with
    | none => some { exit := -1, keyFile := none, stdout := [] }
    | some key =>
      match e.msgFile with
      | none => some { exit := -1, keyFile := some key, stdout := [] }
      | some m => do
        match ← read key with
        | none => some { exit := -1, keyFile := some key, stdout := [] }
        | some (off, p, sk) =>
          let mlen := ftellSize e.seekable m
          if e.mallocSm = false ∨ (mlen ≠ 0 ∧ (e.mallocM = false ∨ e.seekable = false)) then none
          else do
            let buf := m.take e.gotM ++ (junkM mlen).drop (min e.gotM m.length)
            let o ← sign sk (junk (p.sig_bytes + mlen)) smlen0 buf
            let key ← wr key (off + oidLen) (((o.sk.drop oidLen).take p.sk_bytes).take e.keyWritten)
            let out ← rd o.sm 0 o.smlen
            some { exit := 0, keyFile := some key, stdout := out.take e.outWritten }

/-- What the system does to a run of ui/open.c:16-89. -/
structure OpenEnv where
  /-- argc - 1, line 28 -/
  args : Nat
  /-- line 36 -/
  keyFile : Option Bytes
  /-- line 42 -/
  smFile : Option Bytes
  /-- lines 50-51, 69 -/
  seekable : Bool
  /-- lines 64, 65 -/
  mallocSm : Bool
  mallocM : Bool
  /-- how many bytes of the signed message `fread` delivers at most, line 71 -/
  gotSm : Nat

/-- ui/open.c:16-89, main: the value returned.  `junkSm` is the content of fresh memory for `sm`. -/
def uiOpenEnv (P : Prims) (parse : Nat → Option Params) (junk junkSm : Nat → Bytes) (mlen0 : Nat) (e : OpenEnv) : Option Int :=
  if e.args ≠ 2 then some (-1)
  else
    match e.keyFile with
    | none => some (-1)
    | some key =>
      match e.smFile with
      | none => some (-1)
      | some sm => do
        let b ← rd key 0 oidLen
        let oid ← bytesToUll b
        match parse oid with
        | none => some (-1)
        | some p => do
          let pk ← rd key 0 (oidLen + p.pk_bytes)
          if e.mallocSm = false ∨ e.mallocM = false ∨ e.seekable = false then none
          else do
            let buf := sm.take e.gotSm ++ (junkSm sm.length).drop (min e.gotSm sm.length)
            let o ← apiOpen P parse (junk sm.length) mlen0 buf sm.length pk
            some o.ret

/-- ui/keypair.c:17-48, main, when `outWritten` bytes reach the standard output (lines 42-45); `parse` and `keypair` are those of the
implementation it is linked with. -/
def uiKeypairEnv (f : Family) (parse : Nat → Option Params)
    (keypair : Bytes → Bytes → Nat → (Nat → Bytes) → Option (Int × Bytes × Bytes)) (junk seed : Nat → Bytes) (args : List String)
    (outWritten : Nat) : Option KeypairRun :=
  match args with
  | [name] =>
    let oid := (f.strToOid name).getD 0
    match parse oid with
    | none => some { exit := -1, stdout := [] }
    | some p => do
      let r ← keypair (junk (oidLen + p.pk_bytes)) (junk (oidLen + p.sk_bytes)) oid seed
      some { exit := 0, stdout := (r.2.1 ++ r.2.2).take outWritten }
  | _ => some { exit := -1, stdout := [] }

end Xmss
