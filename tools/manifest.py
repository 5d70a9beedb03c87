#!/usr/bin/env python3
"""Regenerates MANIFEST.json and lean/Verif.lean from the sources.

Status and note of each property are kept in tools/status.json; theorem names are collected
from lean/Verif/Props (every theorem whose name starts with the property id).
"""
import json, re, os, glob
root = os.path.dirname(os.path.dirname(os.path.abspath(__file__)))
ids = [json.loads(l)["id"] for l in open(f"{root}/properties.jsonl") if l.strip()]
thms = {i: [] for i in ids}
for f in sorted(glob.glob(f"{root}/lean/Verif/Props/*.lean")):
    ns = []
    for line in open(f):
        m = re.match(r"namespace\s+(\S+)", line)
        if m: ns.append(m.group(1))
        m = re.match(r"end\s+(\S+)", line)
        if m and ns and ns[-1] == m.group(1): ns.pop()
        m = re.match(r"(?:@\[[^\]]*\]\s*)?theorem\s+(C\d+)_(\S+)", line)
        if m and m.group(1) in thms:
            thms[m.group(1)].append(".".join(ns + [f"{m.group(1)}_{m.group(2)}"]))
status = json.load(open(f"{root}/tools/status.json"))
claims = []
for i in ids:
    s = status.get(i)
    if s is None:
        continue
    claims.append({"property": i, "status": s["status"], "theorems": thms[i], "note": s["note"]})
json.dump({"claims": claims}, open(f"{root}/MANIFEST.json", "w"), indent=1)
mods = []
for f in sorted(glob.glob(f"{root}/lean/Verif/**/*.lean", recursive=True)):
    mods.append("import " + os.path.relpath(f, f"{root}/lean")[:-5].replace("/", "."))
open(f"{root}/lean/Verif.lean", "w").write("\n".join(mods) + "\n")
missing = [i for i in ids if i not in status]
print("claims", len(claims), "theorems", sum(len(c["theorems"]) for c in claims), "missing", missing)
