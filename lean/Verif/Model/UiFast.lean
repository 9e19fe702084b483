import Verif.Model.Ui
import Verif.Model.FastCore
/-
Model of the command line tools as linked with the fast implementation (Makefile:73-77: ui/xmss_%_fast,
ui/xmssmt_%_fast), that is ui/keypair.c, ui/sign.c and ui/open.c with xmss_core_fast.c in place of xmss_core.c.
Conventions and omissions are those of Model/Ui.lean.
-/
namespace Xmss

/-- `xmss_parse_oid`/`xmssmt_parse_oid` (params.c:254-375, params.c:377-698) in the fast tools. -/
def uiParseFast : Family → Nat → Option Params | .xmss => parseXmssFast | .xmssmt => parseXmssmtFast
/-- `XMSS_KEYPAIR` in the fast tools, ui/keypair.c:7-15. -/
def uiKeypairCallFast (P : Prims) : Family → Bytes → Bytes → Nat → (Nat → Bytes) → Option (Int × Bytes × Bytes)
  | .xmss => xmssKeypairFast P | .xmssmt => xmssmtKeypairFast P
/-- `XMSS_SIGN` in the fast tools, ui/sign.c:8-14. -/
def uiSignCallFast (P : Prims) : Family → Bytes → Bytes → Nat → Bytes → Option FastOut
  | .xmss => xmssSignFast P | .xmssmt => xmssmtSignFast P

/-- ui/keypair.c:17-48, main, linked with xmss_core_fast.c. -/
def uiKeypairFast (P : Prims) (f : Family) (junk : Nat → Bytes) (seed : Nat → Bytes) (args : List String) :
    Option KeypairRun :=
  match args with
  | [name] =>
    let oid := (f.strToOid name).getD 0
    match uiParseFast f oid with
    | none => some { exit := -1, stdout := [] }
    | some p => do
      let r ← uiKeypairCallFast P f (junk (oidLen + p.pk_bytes)) (junk (oidLen + p.sk_bytes)) oid seed
      some { exit := 0, stdout := r.2.1 ++ r.2.2 }
  | _ => some { exit := -1, stdout := [] }

/-- ui/sign.c:49-87 linked with xmss_core_fast.c, see `uiSignRead`. -/
def uiSignReadFast (f : Family) (keyFile : Bytes) : Option (Option (Nat × Params × Bytes)) := do
  let b ← rd keyFile 0 oidLen
  let oidPk ← bytesToUll b
  match uiParseFast f oidPk with
  | none => some none
  | some pp => do
    let off := oidLen + pp.pk_bytes
    let b ← rd keyFile off oidLen
    let oidSk ← bytesToUll b
    match uiParseFast f oidSk with
    | none => some none
    | some p => do
      let sk ← rd keyFile off (oidLen + p.sk_bytes)
      some (some (off, p, sk))

/-- ui/sign.c:16-102, main, linked with xmss_core_fast.c.  `smlen0` is the content of the uninitialised variable `smlen`
(line 81): the fast implementation does not set it when it refuses to sign.  The return value of `XMSS_SIGN` is ignored
(line 89).  Line 93 writes `smlen` bytes from `sm`; more than the size of `sm` is undefined behaviour.  (Reading the
uninitialised `smlen` is modelled as reading an arbitrary value, although a compiler may do worse.) -/
def uiSignFast (P : Prims) (f : Family) (junk : Nat → Bytes) (smlen0 : Nat) (keyFile msgFile : Option Bytes) :
    Option SignRun :=
  match keyFile with
  | none => some { exit := -1, keyFile := none, stdout := [] }
  | some key =>
    match msgFile with
    | none => some { exit := -1, keyFile := some key, stdout := [] }
    | some m => do
      match ← uiSignReadFast f key with
      | none => some { exit := -1, keyFile := some key, stdout := [] }
      | some (off, p, sk) =>
        let o ← uiSignCallFast P f sk (junk (p.sig_bytes + m.length)) smlen0 m
        let key ← wr key (off + oidLen) ((o.sk.drop oidLen).take p.sk_bytes)
        let out ← rd o.sm 0 o.smlen
        some { exit := 0, keyFile := some key, stdout := out }

/-- ui/open.c:16-89, main, linked with xmss_core_fast.c (verification itself is in xmss_commons.c, the same in both
builds). -/
def uiOpenFast (P : Prims) (f : Family) (junk : Nat → Bytes) (keyFile smFile : Option Bytes) : Option Int :=
  match keyFile with
  | none => some (-1)
  | some key =>
    match smFile with
    | none => some (-1)
    | some sm => do
      let b ← rd key 0 oidLen
      let oid ← bytesToUll b
      match uiParseFast f oid with
      | none => some (-1)
      | some p => do
        let pk ← rd key 0 (oidLen + p.pk_bytes)
        let o ← apiOpen P (uiParseFast f) (junk sm.length) (junk 0).length sm sm.length pk
        some o.ret

end Xmss
