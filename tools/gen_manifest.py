#!/usr/bin/env python3
"""Generates /verif/MANIFEST.json, lean/Verif/Axioms.lean and lean/Verif.lean."""
import json, os, glob
V = os.path.dirname(os.path.dirname(os.path.abspath(__file__)))
C = []
def c(prop, status, theorems, note=""):
    C.append(dict(property=prop, status=status,
                  theorems=["Loc.Props." + t for t in theorems.split()], note=note))

exec(open(os.path.join(V, "tools", "claims.py")).read())

json.dump({"claims": C}, open(os.path.join(V, "MANIFEST.json"), "w"), indent=1)
mods = []
for f in sorted(glob.glob(os.path.join(V, "lean/Verif/**/*.lean"), recursive=True)):
    m = os.path.relpath(f, os.path.join(V, "lean"))[:-5].replace("/", ".")
    mods.append(m)
seen = []
for x in C:
    for t in x["theorems"]:
        if t not in seen: seen.append(t)
with open(os.path.join(V, "lean/Verif/Axioms.lean"), "w") as o:
    for m in mods:
        if m.startswith("Verif.Props"): o.write("import %s\n" % m)
    o.write("/-\nPrints the axioms every claimed theorem depends on (generated by tools/gen_manifest.py).\n-/\n")
    for t in seen: o.write("#print axioms %s\n" % t)
if "Verif.Axioms" not in mods: mods.append("Verif.Axioms")
with open(os.path.join(V, "lean/Verif.lean"), "w") as o:
    for m in sorted(mods): o.write("import %s\n" % m)
