#!/usr/bin/env python3
"""Writes MANIFEST.json and lean/Verif/Audit.lean from the claims below."""
import json, os

ROOT = os.path.dirname(os.path.dirname(os.path.abspath(__file__)))

CLAIMS = json.load(open(os.path.join(ROOT, "tools", "claims.json")))
ids = [json.loads(l)["id"] for l in open(os.path.join(ROOT, "properties.jsonl"))]
by = {c["property"]: c for c in CLAIMS}
claims = [by[i] for i in ids if i in by]
assert len(claims) == len(CLAIMS), "claim for an unknown property"
with open(os.path.join(ROOT, "MANIFEST.json"), "w") as f:
    json.dump({"claims": claims}, f, indent=1, ensure_ascii=False)
    f.write("\n")
names = []
for c in claims:
    for t in c["theorems"]:
        if t not in names:
            names.append(t)
mods = sorted(
    os.path.relpath(os.path.join(d, x), os.path.join(ROOT, "lean"))[:-5].replace("/", ".")
    for d, _, xs in os.walk(os.path.join(ROOT, "lean", "Verif")) for x in xs if x.endswith(".lean"))
with open(os.path.join(ROOT, "lean", "Verif", "Audit.lean"), "w") as f:
    f.write("import Lean\n")
    for m in mods:
        if m != "Verif.Audit":
            f.write(f"import {m}\n")
    f.write('''
/-! Generated by tools/gen_manifest.py.  Fails to compile unless every theorem claimed in
MANIFEST.json exists and depends on no axiom besides the three standard ones. -/

open Lean Elab Command in
elab "audit " ids:ident,* : command => do
  for id in ids.getElems do
    let n ← liftCoreM (realizeGlobalConstNoOverload id)
    let some (.thmInfo _) := (← getEnv).find? n | throwError "{n} is not a theorem"
    for a in ← collectAxioms n do
      unless a ∈ [``propext, ``Classical.choice, ``Quot.sound] do
        throwError "{n} depends on axiom {a}"

''')
    for n in names:
        f.write(f"audit {n}\n")
with open(os.path.join(ROOT, "lean", "Verif.lean"), "w") as f:
    for m in mods + ([] if "Verif.Audit" in mods else ["Verif.Audit"]):
        f.write(f"import {m}\n")
