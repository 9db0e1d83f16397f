#!/usr/bin/env python3
"""Writes AXIOMS.txt: the axioms that each theorem of MANIFEST.json depends on, as printed by Lean."""
import json, os, re, subprocess
ROOT = os.path.abspath(os.path.join(os.path.dirname(__file__), ".."))
names = []
for c in json.load(open(os.path.join(ROOT, "MANIFEST.json")))["claims"]:
    names += [t for t in c["theorems"] if t not in names]
p = "/tmp/axioms.lean"
open(p, "w").write("import Verif\n" + "".join("#print axioms %s\n" % n for n in names))
out = subprocess.run(["lake", "env", "lean", p], cwd=os.path.join(ROOT, "lean"), capture_output=True, text=True).stdout
res = {m[0]: "" for m in re.findall(r"'(\S+)' (does not depend on any axioms)", out)}
res.update({m[0]: " ".join(m[1].replace(",", " ").split()) for m in re.findall(r"'(\S+)' depends on axioms: \[([^\]]*)\]", out)})
assert set(res) == set(names), set(names) - set(res)
bad = [n for n in names if not set(res[n].split()) <= {"propext", "Classical.choice", "Quot.sound"}]
assert not bad, bad
open(os.path.join(ROOT, "AXIOMS.txt"), "w").write("".join("%s: %s\n" % (n, res[n] or "none") for n in names))
print(len(names), "theorems;", {k: sum(1 for n in names if res[n] == k) for k in sorted(set(res.values()))})
