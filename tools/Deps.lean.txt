import Lean
import TARGET
open Lean
partial def go (env : Environment) (n : Name) (s : NameSet) : NameSet :=
  if s.contains n || !(`Verif).isPrefixOf n then s else
  match env.find? n with
  | none => s
  | some c =>
    let s := s.insert n
    let es := c.getUsedConstantsAsSet
    es.foldl (fun s m => go env m s) s
run_cmd do
  let env ← getEnv
  for (n, _) in env.constants.map₁.toList do
    if (`Verif).isPrefixOf n && !n.isInternal then
      match n with
      | .str _ l =>
        if l.length > 4 && l.startsWith "C" && ((l.toList[1]?).getD ' ').isDigit then
          Lean.logInfo m!"DEP {n} {String.intercalate "," ((go env n {}).toList.map toString)}"
      | _ => pure ()
