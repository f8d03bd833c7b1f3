#!/usr/bin/env python3
"""Regenerate DESIGN.md: tools/design_head.md followed by an index of the model and of the theorems, taken from the sources."""
import glob, json, os, re
root = os.path.dirname(os.path.dirname(os.path.abspath(__file__)))
L = f"{root}/lean/Verif"
def imports(f):
    return re.findall(r"^import Verif\.(\w+)\.(\w+)", open(f).read(), re.M)
def closure(f):
    seen, todo = set(), [f]
    while todo:
        for d, n in imports(todo.pop()):
            g = f"{L}/{d}/{n}.lean"
            if g not in seen: seen.add(g); todo.append(g)
    return seen
def doc(f):
    m = re.search(r"/-!?(?!-)(.*?)-/", open(f).read(), re.S)
    return " ".join(m.group(1).split()) if m else ""
out = [open(f"{root}/tools/design_head.md").read().rstrip(), "", "## What is modelled", "",
       "Everything that is not cited by a definition in these modules is not modelled; in particular the machine code that the translator generates, "
       "context switching, the C library, input/output and floating-point functions. The comment at the head of each module:", ""]
for f in sorted(glob.glob(f"{L}/Model/*.lean")):
    s = open(f).read()
    cites = sorted(set(re.findall(r"[\w/]+\.(?:hfa|cfa|hpp|cpp|yy|cc|h)\b", s)))
    n = os.path.basename(f)
    out.append(f"* `Model/{n}` - {doc(f)} Cited: {', '.join('`'+c+'`' for c in cites)}.")
out += ["", "## Where each property is proved", "", "| id | status | module | model | theorems |", "|----|--------|--------|-------|----------|"]
man = {c["property"]: c for c in json.load(open(f"{root}/MANIFEST.json"))["claims"]}
where = {}
for f in sorted(glob.glob(f"{L}/Props/*.lean")):
    for t in re.findall(r"^theorem (C\d+)_", open(f).read(), re.M):
        where.setdefault(t, [])
        if f not in where[t]: where[t].append(f)
for p, c in man.items():
    fs = where[p]
    mods = sorted({os.path.basename(g)[:-5] for f in fs for g in closure(f) if "/Model/" in g} - {"Base", "Heap", "Trans"})
    short = [t.split(".")[-1].replace("_", "\\_") for t in c["theorems"]]
    out.append(f"| {p} | {c['status']} | {', '.join('Props/'+os.path.basename(f) for f in fs)} | {', '.join(mods)} | {', '.join(short)} |")
out += ["", "## Axioms", "", "Printed with `#print axioms` for every theorem of MANIFEST.json. No theorem depends on any other axiom.", ""]
ax = json.load(open(f"{root}/tools/axioms.json"))
groups = {}
for t, a in ax.items(): groups.setdefault(", ".join(a) or "no axiom", []).append(t)
for a, ts in sorted(groups.items(), key=lambda x: -len(x[1])):
    out.append(f"* {a}: {len(ts)} theorems" + ("." if len(ts) > 120 else ": " + ", ".join(t.split(".")[-1].replace("_", "\\_") for t in ts) + "."))
out.append("")
open(f"{root}/DESIGN.md", "w").write("\n".join(out))
