#!/usr/bin/env python3
"""List the properties of MANIFEST.json none of whose theorems mentions a definition of Verif/Model in its statement (directly or
through definitions).  Such theorems hold whatever the model says.  Needs a finished `lake build`."""
import json, os, subprocess, tempfile
root = os.path.dirname(os.path.dirname(os.path.abspath(__file__)))
claims = json.load(open(root + "/MANIFEST.json"))["claims"]
lean = "import Lean\nimport Verif\nopen Lean\ndef claims : List (String × List Lean.Name) := [" + ",\n".join(
    '("%s", [%s])' % (c["property"], ", ".join("`" + t for t in c["theorems"])) for c in claims) + "]\n" + r"""
partial def reach (env : Environment) : List Name → NameSet → NameSet → NameSet
  | [], _, acc => acc
  | n :: todo, seen, acc =>
    if seen.contains n then reach env todo seen acc else
    let seen := seen.insert n
    match env.getModuleIdxFor? n with
    | none => reach env todo seen acc
    | some i =>
      let m := env.header.moduleNames[i.toNat]!
      if !(`Verif).isPrefixOf m then reach env todo seen acc else
      let acc := acc.insert m
      match env.find? n with
      | some (.defnInfo d) => reach env (d.value.getUsedConstants.toList ++ d.type.getUsedConstants.toList ++ todo) seen acc
      | some (.inductInfo d) => reach env (d.type.getUsedConstants.toList ++ d.ctors ++ todo) seen acc
      | some c => reach env ((if c.isTheorem then [] else c.type.getUsedConstants.toList) ++ todo) seen acc
      | none => reach env todo seen acc

run_cmd do
  let env ← getEnv
  for (p, ts) in claims do
    let mut hit := false
    let mut mods : NameSet := {}
    for t in ts do
      match env.find? t with
      | some c =>
        let r := reach env c.type.getUsedConstants.toList {} {}
        for m in r.toList do mods := mods.insert m
        if r.toList.any fun m => (`Verif.Model).isPrefixOf m then hit := true
      | none => logInfo m!"missing {t}"
    unless hit do logInfo m!"{p}: no theorem mentions the model; modules {mods.toList}"
"""
with tempfile.NamedTemporaryFile("w", suffix=".lean") as f:
    f.write(lean)
    f.flush()
    r = subprocess.run(["lake", "env", "lean", f.name], cwd=root + "/lean", capture_output=True, text=True)
print((r.stdout + r.stderr).strip() or f"all {len(claims)} properties mention the model")
