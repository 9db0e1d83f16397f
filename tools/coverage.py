#!/usr/bin/env python3
"""Which lines of /repo are cited by the model: per file, the number of lines (blank lines and comments left out)
that are cited and the ranges that are not.  usage: coverage.py [file-substring ...]"""
import os, re, sys
ROOT = os.path.abspath(os.path.join(os.path.dirname(__file__), ".."))
REPO = "/repo"
cited = {}
num = r"\d+(?:\s*[-–]\s*\d+)?"
for d, _, fs in os.walk(os.path.join(ROOT, "lean/Verif")):
    for f in fs:
        if not f.endswith(".lean"): continue
        text = open(os.path.join(d, f)).read()
        for block in re.findall(r"/-[-!]?.*?-/|--[^\n]*(?:\n\s*--[^\n]*)*", text, re.S):
            block = re.sub(r"\n\s*(--)?\s*", " ", block)
            cur = None
            for m in re.finditer(r"([\w./-]*\w\.(?:rs|h|cs))|\b(\d+)(?:\s*[-–]\s*(\d+))?", block):
                if m.group(1):
                    name = re.sub(r"^/?repo/", "", m.group(1))
                    cand = [name] if os.path.exists(os.path.join(REPO, name)) else None
                    if cand is None:
                        base = [c for c in cited if c.endswith("/" + name)]
                        cur = base[0] if base else None
                        if cur is None:
                            hits = []
                            for dd, _, ff in os.walk(REPO):
                                for g in ff:
                                    p = os.path.relpath(os.path.join(dd, g), REPO)
                                    if p.endswith("/" + name): hits.append(p)
                            cur = hits[0] if len(hits) == 1 else None
                    else: cur = name
                    if cur: cited.setdefault(cur, set())
                elif cur:
                    a = int(m.group(2)); b = int(m.group(3) or a)
                    if b >= a and b - a < 800: cited[cur].update(range(a, b + 1))
rows = []
for d, dirs, fs in os.walk(REPO):
    dirs[:] = [x for x in dirs if x not in ("target", ".git", "node_modules")]
    for f in fs:
        if not f.endswith(".rs"): continue
        p = os.path.relpath(os.path.join(d, f), REPO)
        lines = open(os.path.join(REPO, p), errors="replace").read().split("\n")
        code, block = [], False
        for i, l in enumerate(lines, 1):
            s = l.strip()
            if s.startswith("/*"): block = True
            if s and not s.startswith("//") and not block: code.append(i)
            if "*/" in s: block = False
        c = cited.get(p, set())
        n = sum(i in c for i in code)
        miss, run = [], []
        for i in code:
            if i in c:
                if run: miss.append(run); run = []
            else: run.append(i)
        if run: miss.append(run)
        rows.append((p, n, len(code), ["%d-%d" % (r[0], r[-1]) if len(r) > 1 else str(r[0]) for r in miss if len(r) > 2]))
for p, n, t, miss in sorted(rows):
    if sys.argv[1:] and not any(a in p for a in sys.argv[1:]): continue
    if not sys.argv[1:] and not p.startswith(("src/", "napi")): continue
    print("%-52s %4d/%4d  %s" % (p, n, t, " ".join(miss) if sys.argv[1:] or True else ""))
