import Lean
import Verif
open Lean
partial def closure (env : Environment) (memo : IO.Ref (Std.HashSet Name)) (n : Name) : IO Unit := do
  if (← memo.get).contains n then return
  memo.modify (·.insert n)
  match env.find? n with
  | none => return
  | some ci =>
    let es := ci.type.getUsedConstants ++ (match ci.value? (allowOpaque := true) with | some v => v.getUsedConstants | none => #[])
    for c in es do closure env memo c
#eval show CoreM Unit from do
  let env ← getEnv
  let mut out := #[]
  for (n, ci) in env.constants.map₁.toList do
    if ci.isTheorem && (`Knot).isPrefixOf n && (n.components.length == 2) && (toString n).startsWith "Knot.C" then
      let memo ← IO.mkRef {}
      closure env memo n
      let s ← memo.get
      let ks := (s.toList.filter (fun m => (`Knot).isPrefixOf m)).map toString
      let ax := (s.toList.filter (fun m => match env.find? m with | some (.axiomInfo _) => true | _ => false)).map toString
      out := out.push (Json.mkObj [("name", toString n), ("deps", toJson ks), ("axioms", toJson ax)]).compress
  IO.FS.writeFile "/tmp/deps.jsonl" ("\n".intercalate out.toList)
