#!/usr/bin/env python3
"""Regenerate MANIFEST.json from the theorem names in lean/Verif/Props/*.lean and the notes in tools/notes.json."""
import json, re, glob, os
root = os.path.dirname(os.path.dirname(os.path.abspath(__file__)))
props = [json.loads(l) for l in open(f"{root}/properties.jsonl") if l.strip()]
notes = json.load(open(f"{root}/tools/notes.json"))
thms = {}
for f in sorted(glob.glob(f"{root}/lean/Verif/Props/*.lean")):
    ns = []
    for line in open(f):
        m = re.match(r"namespace (\S+)", line)
        if m: ns.append(m.group(1)); continue
        m = re.match(r"end (\S+)", line)
        if m and ns and ns[-1] == m.group(1): ns.pop(); continue
        m = re.match(r"theorem ((C\d+)_\S+)", line)
        if m:
            thms.setdefault(m.group(2), []).append(".".join(ns + [m.group(1)]))
docs = {}
for f in sorted(glob.glob(f"{root}/lean/Verif/Props/*.lean")):
    for m in re.finditer(r"/--((?:(?!-/).)*)-/\s*\ntheorem (C\d+_\S+)", open(f).read(), re.S):
        docs[m.group(2)] = re.sub(r"^C\d+(, C\d+)*( fails)?[:,]? *", "", " ".join(m.group(1).split()))
def default_note(t):
    """Note for a property without one in notes.json: what is false of the code, and what is missing."""
    out = []
    for x in t:
        x = x.split(".")[-1]
        d = docs.get(x, "")
        if x.endswith("_violated"):
            out.append(f"False of the code ({x}): {d}")
        elif x.endswith("_partial"):
            i = max(d.find("Missing"), d.find("What is missing"), d.find("Partial:"))
            if i >= 0: out.append(f"{x}: {d[i:]}")
    return " ".join(out) if out else "Proved of the model as stated in properties.jsonl; the simplifications of the model are in DESIGN.md and in the comments of its definitions."
claims = []
for p in props:
    t = thms.get(p["id"], [])
    n = notes.get(p["id"], {})
    if isinstance(n, str): n = {"note": n}
    if not t and n.get("status") != "not_applicable":
        continue
    bad = any(x.endswith("_partial") or x.endswith("_violated") for x in t)
    status = n.get("status", "partial" if bad else "proved")
    claims.append({"property": p["id"], "status": status, "theorems": t, "note": n.get("note") or default_note(t)})
unknown = set(thms) - {p["id"] for p in props}
assert not unknown, unknown
json.dump({"claims": claims}, open(f"{root}/MANIFEST.json", "w"), indent=1)
print(len(claims), "claims,", sum(len(c["theorems"]) for c in claims), "theorems; missing:", [p["id"] for p in props if p["id"] not in thms])
