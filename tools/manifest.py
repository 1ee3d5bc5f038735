#!/usr/bin/env python3
"""Write MANIFEST.json and lean/Verif.lean.  Edit CLAIMS here and re-run."""
import json, os, glob
root = os.path.dirname(os.path.dirname(os.path.abspath(__file__)))
CLAIMS = []
def claim(p, status, thms, note):
    CLAIMS.append(dict(property=p, status=status, theorems=["TA." + t for t in thms.split()], note=note))

exec(open(os.path.join(root, "tools", "claims.py")).read())

json.dump({"claims": CLAIMS}, open(os.path.join(root, "MANIFEST.json"), "w"), indent=1)
lean = os.path.join(root, "lean")
mods = sorted(os.path.relpath(f, lean)[:-5].replace("/", ".") for f in glob.glob(lean + "/Verif/**/*.lean", recursive=True))
open(os.path.join(lean, "Verif.lean"), "w").write("".join("import %s\n" % m for m in mods))
names = open("/tmp/check_names.lean", "w")
names.write("import Verif\n")
for c in CLAIMS:
    for t in c["theorems"]:
        names.write("#print axioms %s\n" % t)
