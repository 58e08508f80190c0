import Verif
import Lean
open Lean

partial def collect (env : Environment) (n : Name) : StateM NameSet Unit := do
  if (← get).contains n then return
  if !(`Verif).isPrefixOf n then return
  modify (·.insert n)
  match env.find? n with
  | none => pure ()
  | some c =>
    for m in c.type.getUsedConstants do collect env m
    match c.value? (allowOpaque := true) with
    | some v => for m in v.getUsedConstants do collect env m
    | none => pure ()

run_cmd do
  let env ← getEnv
  let mut out : List (String × Json) := []
  for (n, c) in env.constants.map₁.toList do
    if (`Verif.Props).isPrefixOf n && !n.isInternal then
      if let .thmInfo _ := c then
        if (n.toString.splitOn ".").getLast!.startsWith "c" then
        let (_, s) := (collect env n).run {}
        out := (n.toString, toJson (s.toList.map toString)) :: out
  IO.FS.writeFile "/tmp/mut/lean/deps.json" (Json.mkObj out).compress
