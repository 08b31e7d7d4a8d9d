#!/usr/bin/env python3
"""addclaim.py ID STATUS thm,thm,... NOTE: replace one entry of claims.json."""
import json, os, sys
p = os.path.join(os.path.dirname(os.path.abspath(__file__)), "claims.json")
c = json.load(open(p))
i, s, t, n = sys.argv[1:5]
c = [x for x in c if x["property"] != i]
c.append({"property": i, "status": s, "theorems": [x if x.startswith("Verif.") else f"Verif.{i}.{x}" for x in t.split(",") if x], "note": n})
c.sort(key=lambda x: x["property"])
open(p, "w").write("[\n" + ",\n".join(" " + json.dumps(x) for x in c) + "\n]\n")
