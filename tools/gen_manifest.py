#!/usr/bin/env python3
"""Writes MANIFEST.json: status, theorems and note for each property."""
import json, os, re
ROOT = os.path.join(os.path.dirname(__file__), "..")
C = {}
def claim(pid, status, theorems, note):
    C[pid] = {"property": pid, "status": status, "theorems": theorems.split(), "note": note}
B = "Verif.Bytes."
def ns(prefix, names): return " ".join(prefix + n for n in names.split())

exec(open(os.path.join(os.path.dirname(__file__), "claims.py")).read())

ids = [json.loads(l)["id"] for l in open(os.path.join(ROOT, "properties.jsonl"))]
claims = []
for i in ids:
    if i in C:
        claims.append(C[i])
    else:
        claims.append({"property": i, "status": "partial", "theorems": [], "note": "Not proved yet."})
# every listed theorem must exist in the sources
src = ""
for d, _, fs in os.walk(os.path.join(ROOT, "lean/Verif")):
    for f in fs:
        if f.endswith(".lean"): src += open(os.path.join(d, f)).read()
for c in claims:
    for t in c["theorems"]:
        n = t.split(".")[-1]
        if not re.search(r"theorem (\S+\.)?%s\b" % re.escape(n), src):
            raise SystemExit("no such theorem: " + t)
json.dump({"claims": claims}, open(os.path.join(ROOT, "MANIFEST.json"), "w"), indent=1)
print({s: sum(1 for c in claims if c["status"] == s) for s in ("proved", "partial", "not_applicable")},
      "unproved:", [c["property"] for c in claims if not c["theorems"]])
