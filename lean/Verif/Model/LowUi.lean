import Verif.Model.LowFast
import Verif.Model.UiFast
/-
The command line tools ui/keypair.c, ui/sign.c and ui/open.c on the explicit memory of Model/Low.lean, linked with the
pointer-level simple or fast implementation: local arrays, `malloc`ed buffers, `fread` into them and `fwrite` from them,
file positions.

* A file is its bytes; an open file (`Stream`) also has a position.  `none` for a file is a failing `fopen`.
* Undefined behaviour is `none`, as in Model/Low.lean; in particular: using a byte that a short `fread` did not fill, and
  passing uninitialised bytes to `fwrite` (they would be written out).
* Not modelled here: the argc checks of sign.c and open.c, failing malloc/fseek to the end/ftell/fwrite (Model/UiErrors.lean), stderr,
  crashes in the middle (Model/UiCrash.lean), `free` and the end of the life of the local arrays at the end of main.
-/
namespace Xmss.Low

/-- What a tool is linked with: `XMSS_PARSE_OID`, `XMSS_KEYPAIR`, `XMSS_SIGN`, `XMSS_SIGN_OPEN` (ui/keypair.c:7-15,
ui/sign.c:8-14, ui/open.c:8-14). -/
structure Lib where
  parse : Nat → Option Params
  keypair : Mem → Ptr → Ptr → Nat → (Params → Bytes) → Option (Int × Mem)
  sign : Mem → Ptr → Ptr → Nat → Ptr → Nat → Option (Int × Nat × Mem)
  signOpen : Mem → Ptr → Nat → Ptr → Nat → Ptr → Option (Int × Nat × Mem)

/-- The library of ui/xmss_% and ui/xmssmt_% (Makefile:80-84): xmss_core.c. -/
def libSimple (P : Prims) (f : Family) : Lib where
  parse := f.parse
  keypair := apiKeypair P f.parse
  sign := apiSign P f.parse
  signOpen := apiOpen P f.parse

/-- The library of ui/xmss_%_fast and ui/xmssmt_%_fast (Makefile:74-78): xmss_core_fast.c. -/
def libFast (P : Prims) (f : Family) : Lib where
  parse := f.parseFast
  keypair := apiKeypairFastL P f
  sign := apiSignFastL P f
  signOpen := apiOpen P f.parseFast

/-- `malloc`, ui/sign.c:79-80; a size of 0 gives an object without bytes. -/
def malloc (m : Mem) (len : Nat) : Ptr × Mem := (⟨m.length, 0⟩, m ++ [List.replicate len none])

/-- An open file, e.g. `keypair_file`, ui/sign.c:17. -/
structure Stream where
  data : Bytes
  pos : Nat
deriving DecidableEq, Repr

/-- `fread(q, 1, len, s)`, e.g. ui/sign.c:53: stores what the file has, at most `len` bytes.  The number of bytes is returned to
the tools, which ignore it. -/
def fread (m : Mem) (q : Ptr) (len : Nat) (s : Stream) : Option (Mem × Stream) := do
  let x := (s.data.drop s.pos).take len
  let m ← store m q x
  some (m, { s with pos := s.pos + x.length })

/-- `fseek(s, k, SEEK_CUR)`, e.g. ui/sign.c:65; it fails, and leaves the position, before the start of the file. -/
def fseekCur (s : Stream) (k : Int) : Stream :=
  if (s.pos : Int) + k < 0 then s else { s with pos := ((s.pos : Int) + k).toNat }

/-- `fwrite(q, 1, len, s)` to a file, ui/sign.c:92; behind the end of the file a gap is filled with zeros. -/
def fwriteFile (m : Mem) (q : Ptr) (len : Nat) (s : Stream) : Option Stream := do
  let x ← load m q len
  some { data := s.data.take s.pos ++ List.replicate (s.pos - s.data.length) 0 ++ x ++ s.data.drop (s.pos + len), pos := s.pos + len }

/-- ui/keypair.c:17-48, main; `args` are argv[1], argv[2], ....  The size of a local array is computed in `unsigned`. -/
def uiKeypairL (L : Lib) (f : Family) (rnd : Params → Bytes) (args : List String) : Option KeypairRun :=
  match args with
  | [name] =>
    let oid := (f.strToOid name).getD 0
    match L.parse oid with
    | none => some { exit := -1, stdout := [] }
    | some p => do
      let (pk, m) ← alloc [] (w32 (oidLen + p.pk_bytes))
      let (sk, m) ← alloc m (w32 (oidLen + p.sk_bytes))
      let r ← L.keypair m pk sk oid rnd
      let a ← load r.2 pk (w32 (oidLen + p.pk_bytes))
      let b ← load r.2 sk (w32 (oidLen + p.sk_bytes))
      some { exit := 0, stdout := a ++ b }
  | _ => some { exit := -1, stdout := [] }

/-- ui/sign.c:77-102: the rest of main when both OIDs have been accepted; `m` and `key` are memory and the key file (behind
the second OID), `p` the parameters, `M` the message file, `smlen0` the content of the uninitialised `smlen`. -/
def uiSignRest (L : Lib) (p : Params) (smlen0 : Nat) (m : Mem) (key : Stream) (M : Bytes) : Option SignRun := do
  let mlen := w64 M.length
  let (sk, m) ← alloc m (w32 (oidLen + p.sk_bytes))
  let (msg, m) := malloc m mlen
  let (sm, m) := malloc m (w64 (p.sig_bytes + mlen))
  let key := fseekCur key (-4)
  let (m, key) ← fread m sk (w32 (oidLen + p.sk_bytes)) key
  let (m, _) ← fread m msg mlen { data := M, pos := 0 }
  let r ← L.sign m sk sm smlen0 msg mlen
  let key := fseekCur key (-(p.sk_bytes : Int))
  let key ← fwriteFile r.2.2 (sk + oidLen) p.sk_bytes key
  let out ← load r.2.2 sm r.2.1
  some { exit := 0, keyFile := some key.data, stdout := out }

/-- ui/sign.c:16-102, main, for two file arguments.  Both OIDs are read into the same four bytes (23, 53, 67). -/
def uiSignL (L : Lib) (smlen0 : Nat) (keyFile msgFile : Option Bytes) : Option SignRun :=
  match keyFile with
  | none => some { exit := -1, keyFile := none, stdout := [] }
  | some data =>
    match msgFile with
    | none => some { exit := -1, keyFile := some data, stdout := [] }
    | some M => do
      let (buffer, m) ← alloc [] oidLen
      let (m, key) ← fread m buffer oidLen { data := data, pos := 0 }
      let oidPk ← bytesToUll m buffer oidLen
      match L.parse (w32 oidPk) with
      | none => some { exit := -1, keyFile := some data, stdout := [] }
      | some pp => do
        let key := fseekCur key pp.pk_bytes
        let (m, key) ← fread m buffer oidLen key
        let oidSk ← bytesToUll m buffer oidLen
        match L.parse (w32 oidSk) with
        | none => some { exit := -1, keyFile := some data, stdout := [] }
        | some p => uiSignRest L p smlen0 m key M

/-- ui/open.c:16-89, main, for two file arguments: the value returned by main.  `mlen0` is the content of the
uninitialised `mlen`. -/
def uiOpenL (L : Lib) (mlen0 : Nat) (keyFile smFile : Option Bytes) : Option Int :=
  match keyFile with
  | none => some (-1)
  | some data =>
    match smFile with
    | none => some (-1)
    | some S => do
      let smlen := w64 S.length
      let (buffer, m) ← alloc [] oidLen
      let (m, _) ← fread m buffer oidLen { data := data, pos := 0 }
      let oid ← bytesToUll m buffer oidLen
      match L.parse (w32 oid) with
      | none => some (-1)
      | some p => do
        let (pk, m) ← alloc m (w32 (oidLen + p.pk_bytes))
        let (sm, m) := malloc m smlen
        let (mbuf, m) := malloc m smlen
        let (m, _) ← fread m pk (w32 (oidLen + p.pk_bytes)) { data := data, pos := 0 }
        let (m, _) ← fread m sm smlen { data := S, pos := 0 }
        let r ← L.signOpen m mbuf mlen0 sm smlen pk
        some r.1

end Xmss.Low
