#!/usr/bin/env python3
"""Write DESIGN.md: tools/design_head.md, a table of the properties and the axioms of each theorem.
Argument: a file with the output of `#print axioms` for the names in MANIFEST.json (see tools/manifest.py)."""
import json, os, re, sys, glob
root = os.path.dirname(os.path.dirname(os.path.abspath(__file__)))
props = [json.loads(l) for l in open(root + "/properties.jsonl")]
claims = {c["property"]: c for c in json.load(open(root + "/MANIFEST.json"))["claims"]}
where = {}
for f in sorted(glob.glob(root + "/lean/Verif/**/*.lean", recursive=True)):
    for m in re.finditer(r"^(?:theorem|lemma) ([\w.']+)", open(f).read(), re.M):
        where.setdefault("TA." + m.group(1), os.path.relpath(f, root + "/lean/Verif"))
ax = {}
txt = open(sys.argv[1]).read()
for m in re.finditer(r"'([\w.']+)' (does not depend on any axioms|depends on axioms: \[([^\]]*)\])", txt):
    ax[m.group(1)] = re.sub(r"\s+", " ", m.group(3)) if m.group(3) else "none"
out = open(root + "/tools/design_head.md").read()
out += "## 4. The properties\n\nPlan and result; what is modelled for a property is the code it is anchored at.\n\n"
out += "| id | property | code | status | theorems (file) | scope |\n|---|---|---|---|---|---|\n"
for p in props:
    c = claims[p["id"]]
    byfile = {}
    for t in c["theorems"]:
        byfile.setdefault(where[t], []).append(t[3:])
    th = "; ".join(", ".join(f"`{t}`" for t in ts) + f" ({f})" for f, ts in byfile.items())
    an = ", ".join(p["anchors"]).replace("ta/", "")
    out += f"| {p['id']} | {p['title']} | {an} | {c['status']} | {th} | {c['note']} |\n"
out += "\n## 5. Axioms per theorem\n\n"
groups = {}
for c in claims.values():
    for t in c["theorems"]:
        groups.setdefault(ax[t], set()).add(t[3:])
for a, ts in sorted(groups.items()):
    out += f"* {a}: " + ", ".join(f"`{t}`" for t in sorted(ts)) + "\n"
open(root + "/DESIGN.md", "w").write(out.replace("|---|---|---|---|---|---|\n\n", "|---|---|---|---|---|---|\n"))
