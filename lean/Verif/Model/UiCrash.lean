import Verif.Model.UiFast
/-
ui/sign.c killed at an arbitrary moment, and sequences of such runs on one key file.
-/
namespace Xmss

/-- One run of ui/sign.c:16-102 on the key file `file` and the message `m`, killed at an arbitrary moment or ended normally: `out`
has been written to stdout and the key file is `file'` then.  `read` and `sign` are lines 49-87 and 89.
Nothing is written before line 91, so that a run killed before (or one that returns -1) is `early`; lines 91-95 and the
end of main are the small steps of Model/Ui.lean. -/
inductive CrashRun (read : Bytes → Option (Option (Nat × Params × Bytes)))
    (sign : Bytes → Bytes → Nat → Bytes → Option SignOut) (junk : Nat → Bytes) (smlen0 : Nat) (mayFlush : Nat → Prop)
    (file m : Bytes) : Bytes → Bytes → Prop
  | early : CrashRun read sign junk smlen0 mayFlush file m [] file
  | writing {off : Nat} {p : Params} {sk : Bytes} {o : SignOut} {sm : Bytes} {s : IoState}
      (hread : read file = some (some (off, p, sk)))
      (hsign : sign sk (junk (p.sig_bytes + m.length)) smlen0 m = some o)
      (hsm : rd o.sm 0 o.smlen = some sm)
      (hio : IoReach mayFlush ((o.sk.drop oidLen).take p.sk_bytes) sm (ioStart file (off + oidLen)) s) :
      CrashRun read sign junk smlen0 mayFlush file m s.out s.keyFile

/-- `CrashRun` for the tool ui/sign.c:16-102 linked with xmss_core.c. -/
abbrev CrashRunSlow (P : Prims) (f : Family) := CrashRun (uiSignRead f) (f.sign P)
/-- `CrashRun` for the tool ui/sign.c:16-102 linked with xmss_core_fast.c. -/
abbrev CrashRunFast (P : Prims) (f : Family) :=
  CrashRun (uiSignReadFast f) (fun sk sm l m => (uiSignCallFast P f sk sm l m).map (·.toSignOut))

/-- What one of several runs of ui/sign.c:16-102 has left: message, bytes on stdout, key file. -/
structure CrashRecord where
  msg : Bytes
  out : Bytes
  file : Bytes

/-- Runs of the tool ui/sign.c:16-102 one after the other on one key file, each of them killed at an arbitrary moment or ended normally. -/
def CrashRuns (run : Bytes → Bytes → Bytes → Bytes → Prop) : Bytes → List CrashRecord → Prop
  | _, [] => True
  | file, r :: rs => run file r.msg r.out r.file ∧ CrashRuns run r.file rs

end Xmss
