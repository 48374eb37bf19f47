#!/usr/bin/env python3
"""Writes ../MANIFEST.json and ../lean/Verif/Audit.lean from the table below."""
import json, os, re
here = os.path.dirname(os.path.abspath(__file__))
C = []
def c(prop, status, theorems, note=""):
    C.append(dict(property=prop, status=status, theorems=["Verif." + t for t in theorems.split()], note=note))

exec(open(os.path.join(here, "claims.py")).read())

C.sort(key=lambda d: d["property"])
json.dump({"claims": C}, open(os.path.join(here, "..", "MANIFEST.json"), "w"), indent=1, ensure_ascii=False)
mods = [l for l in open(os.path.join(here, "..", "lean", "Verif.lean")).read().split("\n")
        if l.startswith("import Verif.Properties")]
with open(os.path.join(here, "..", "lean", "Verif", "Audit.lean"), "w") as f:
    f.write("\n".join(mods) + "\n\n/-! Axioms of every theorem named in MANIFEST.json (generated by tools/gen_manifest.py). -/\n\n")
    for d in C:
        f.write(f"-- {d['property']}\n")
        for t in d["theorems"]:
            f.write(f"#print axioms {t}\n")
ids = [json.loads(l)["id"] for l in open(os.path.join(here, "..", "properties.jsonl"))]
have = {d["property"] for d in C}
print("unclaimed:", [i for i in ids if i not in have])
