import Lean
import Verif
/- Prints, for every property theorem, the Verif theorems its proof rests on.  Run with
   `lake env lean --run ../tools/deps.lean` in /verif/lean. -/
open Lean

partial def closure (env : Environment) (todo : List Name) (seen : NameSet) : NameSet :=
  match todo with
  | [] => seen
  | n :: rest =>
    if seen.contains n then closure env rest seen
    else
      let seen := seen.insert n
      match env.find? n with
      | some ci =>
        let us := (ci.type.getUsedConstantsAsSet.toList ++ (ci.value? (allowOpaque := true)).elim [] (·.getUsedConstantsAsSet.toList))
        closure env ((us.filter fun u => u.getRoot == `Verif) ++ rest) seen
      | none => closure env rest seen

def main : IO Unit := do
  initSearchPath (← findSysroot)
  let env ← importModules #[{module := `Verif}] {}
  let mut first := true
  IO.println "{"
  for (n, ci) in env.constants.map₁.toList do
    if (`Verif.Props).isPrefixOf n && ci.isTheorem && ("C".isPrefixOf n.getString!) && !n.isInternal then
      let used := (closure env [n] {}).toList.filter fun u => match env.find? u with | some (.thmInfo _) => true | _ => false
      unless first do IO.println ","
      first := false
      IO.print s!"\"{n}\": {(toJson (used.map toString)).compress}"
  IO.println "}"
