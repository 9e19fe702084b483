import Verif
open Lean
/-- Prints, for each property theorem, the lemmas and definitions of this project it rests on.  Run with
`lake env lean ../tools/deps.lean` in /verif/lean. -/
def isC (n : Name) : Bool := match n with
  | .str _ s => s.length > 4 && s.startsWith "C" && (String.Pos.Raw.get s ⟨1⟩).isDigit && (String.Pos.Raw.get s ⟨2⟩).isDigit
  | _ => false
run_cmd do
  let env ← getEnv
  let inProj (n : Name) : Bool := match env.getModuleIdxFor? n with
    | some i => (env.header.moduleNames[i.toNat]!).getRoot == `Verif
    | none => false
  let mut cs : Array Name := #[]
  for (n, _) in env.constants.map₁.toList do
    if isC n && inProj n then cs := cs.push n
  for c in cs do
    let mut seen : NameSet := {}
    let mut todo : List Name := [c]
    while !todo.isEmpty do
      match todo with
      | [] => pure ()
      | n :: r =>
        todo := r
        if seen.contains n then continue
        seen := seen.insert n
        if let some ci := env.find? n then
          for m in ci.getUsedConstantsAsSet.toList do
            if inProj m && !seen.contains m then todo := m :: todo
    IO.println s!"{c}: {" ".intercalate (seen.toList.map toString)}"
