#!/usr/bin/env python3
"""Writes MANIFEST.json, lean/Verif.lean and lean/Verif/Axioms.lean.
Run after tools/gen_properties.py."""
import json, os, glob
ROOT = os.path.dirname(os.path.dirname(os.path.abspath(__file__)))
claims = []
def c(prop, status, theorems, note=""):
    ths = theorems.split()
    claims.append(dict(property=prop, status=status, theorems=["PT." + t for t in ths], note=note))
exec(open(os.path.join(ROOT, "tools/claims.py")).read())
props = [json.loads(l)["id"] for l in open(os.path.join(ROOT, "properties.jsonl"))]
have = {x["property"] for x in claims}
claims.sort(key=lambda x: int(x["property"][1:]))
missing = [p for p in props if p not in have]
extra = [p for p in have if p not in props]
print("missing:", missing, "extra:", extra)
json.dump({"claims": claims}, open(os.path.join(ROOT, "MANIFEST.json"), "w"), indent=1, ensure_ascii=False)
mods = []
for f in sorted(glob.glob(os.path.join(ROOT, "lean/Verif/**/*.lean"), recursive=True)):
    m = os.path.relpath(f, os.path.join(ROOT, "lean"))[:-5].replace("/", ".")
    mods.append(m)
if "Verif.Axioms" not in mods: mods.append("Verif.Axioms")
mods.sort()
with open(os.path.join(ROOT, "lean/Verif.lean"), "w") as f:
    f.write("".join("import %s\n" % m for m in mods))
with open(os.path.join(ROOT, "lean/Verif/Axioms.lean"), "w") as f:
    f.write("".join("import %s\n" % m for m in mods if m.startswith("Verif.Props.")))
    f.write("\n/-! Prints the axioms of every theorem cited in MANIFEST.json. Generated by tools/gen_manifest.py. -/\n\n")
    seen = set()
    for x in claims:
        for t in x["theorems"]:
            if t not in seen:
                seen.add(t); f.write("#print axioms %s\n" % t)
