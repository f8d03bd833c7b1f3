#!/usr/bin/env python3
"""Print the axioms of every theorem in MANIFEST.json and keep them in tools/axioms.json (needs a built lean/)."""
import json, os, re, subprocess, tempfile
root = os.path.dirname(os.path.dirname(os.path.abspath(__file__)))
ts = [t for c in json.load(open(f"{root}/MANIFEST.json"))["claims"] for t in c["theorems"]]
with tempfile.NamedTemporaryFile("w", suffix=".lean", delete=False) as f:
    f.write("import Verif\n" + "".join(f"#print axioms {t}\n" for t in ts))
out = subprocess.run(["lake", "env", "lean", f.name], cwd=f"{root}/lean", capture_output=True, text=True).stdout
ax = {}
for m in re.finditer(r"'([^']+(?:'[^' ]*)?)' (does not depend on any axioms|depends on axioms:\s*\[([^\]]*)\])", out):
    ax[m.group(1)] = [a.strip() for a in (m.group(3) or "").split(",") if a.strip()]
missing = [t for t in ts if t not in ax]
assert not missing, missing
allowed = {"propext", "Classical.choice", "Quot.sound"}
bad = {t: a for t, a in ax.items() if set(a) - allowed}
assert not bad, bad
json.dump(ax, open(f"{root}/tools/axioms.json", "w"), indent=0)
print(len(ax), "theorems, axioms within", sorted(allowed))
