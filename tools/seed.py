#!/usr/bin/env python3
"""Seeded-bug runs.  usage: seed.py AREA [id ...]

seeded/AREA.json: {"files": [...], "mutants": [{"id", "definition", "file", "old", "new", "claim"}]}.
For each mutant the files of the area are concatenated into one scratch file outside /verif,
the edit is applied, and Lean is run on it.  A theorem counts as failed when it does not
elaborate or when it depends on a lemma that no longer proves (its axioms contain sorryAx or the name of
that lemma).
"""
import json, os, re, subprocess, sys
ROOT = os.path.abspath(os.path.join(os.path.dirname(__file__), ".."))
SCRATCH = "/tmp/seed/" + (sys.argv[1] if len(sys.argv) > 1 else ""); os.makedirs(SCRATCH, exist_ok=True)
CUT = {}  # "cut" of the area: file -> text from which on the file is left out (examples whose failure exhausts the memory)
def concat(files, edit=None):
    imports, body, decls = [], [], []
    for f in files:
        s = open(os.path.join(ROOT, "lean/Verif", f)).read()
        if edit and edit["file"] == f:
            edits = edit.get("edits") or [{"old": edit["old"], "new": edit["new"]}]
            for ed in edits:
                if s.count(ed["old"]) != 1: raise SystemExit("%s: old text occurs %d times" % (edit["id"], s.count(ed["old"])))
                s = s.replace(ed["old"], ed["new"])
        if f in CUT: s = s[:s.index(CUT[f])] + "\nend " + re.search(r"^namespace (\S+)", s, re.M).group(1) + "\n"
        for m in re.findall(r"^(?:public )?import (\S+)", s, re.M):
            mod = m.replace(".", "/") + ".lean"
            if not any(mod == "Verif/" + g for g in files) and m not in imports: imports.append(m)
        s = re.sub(r"^import .*$", "", s, flags=re.M)
        ns = []
        for line in s.split("\n"):
            m = re.match(r"namespace (\S+)", line)
            if m: ns.append(m.group(1))
            m = re.match(r"end (\S+)", line)
            if m and ns and ns[-1] == m.group(1): ns.pop()
            m = re.match(r"(?:protected )?theorem (C\d\d\S*)", line)
            if m and "Props" in f: decls.append(".".join(ns + [m.group(1)]))
        body.append("section\n" + s + "\nend\n")
    return "\n".join("import " + i for i in imports) + "\n" + "\n".join(body), decls
def at_errors(src, out):
    """Theorems at whose position there is an error (a proof that runs out of heartbeats is not always marked in its axioms)."""
    lines, names = src.split("\n"), set()
    for m in re.finditer(r"S\.lean:(\d+):\d+: error", out):
        i = int(m.group(1)) - 1
        if lines[i].startswith("/--"):
            while i < len(lines) and not re.match(r"(protected |private )?(theorem|def|example|instance|abbrev|inductive|structure) ?", lines[i]): i += 1
        else:
            while i > 0 and not re.match(r"(protected |private )?(theorem|def|example|instance|abbrev|inductive|structure) ?", lines[i]): i -= 1
        n = re.match(r"(?:protected )?theorem (C\d\d\S*)", lines[i]) if i < len(lines) else None
        if n: names.add(n.group(1))
    return names
def run(files, edit=None, timeout=1500):
    src, decls = concat(files, edit)
    src += "\n" + "\n".join("#print axioms %s" % d for d in decls) + "\n"
    p = os.path.join(SCRATCH, "S.lean"); open(p, "w").write(src)
    try:
        r = subprocess.run(["lake", "env", "lean", "-Dpp.maxSteps=300", p], cwd=os.path.join(ROOT, "lean"), capture_output=True, text=True, timeout=timeout)
        out = r.stdout + r.stderr
    except subprocess.TimeoutExpired as e:
        out = (e.stdout or b"").decode() + "\nTIMEOUT"
    open(os.path.join(SCRATCH, "out.txt"), "w").write(out)
    ok = set(re.findall(r"'(\S+)' does not depend on any axioms", out))
    for m in re.finditer(r"'(\S+)' depends on axioms: \[([^\]]*)\]", out):
        if set(re.split(r",\s*", m.group(2).strip())) <= {"propext", "Classical.choice", "Quot.sound"}: ok.add(m.group(1))
    failed = [d for d in decls if d not in ok or d.split(".")[-1] in at_errors(src, out)]
    return failed, decls, len(re.findall(r": error", out))
if __name__ == "__main__":
    area = sys.argv[1]; only = sys.argv[2:]
    spec = json.load(open(os.path.join(ROOT, "seeded", area + ".json")))
    CUT.update(spec.get("cut", {}))
    if only == ["base"]:
        f, d, n = run(spec["files"]); print("base: failed", f, "of", len(d), "errors", n); sys.exit()
    for m in spec["mutants"]:
        if only and m["id"] not in only: continue
        failed, decls, nerr = run(spec["files"], m)
        short = [d.split(".")[-1] for d in failed]
        edit = m.get("edit") or ("%s  ==>  %s" % (m["old"], m["new"]) if "old" in m else "; ".join("%s ==> %s" % (e["old"], e["new"]) for e in m["edits"]))
        line = {"id": m["id"], "definition": m["definition"], "edit": edit, "claim": m["claim"],
                "theorems_failed": short, "theorems_tightened": m.get("tightened", [])}
        print(m["id"], "claim", m["claim"], "errors", nerr, "failed", short, flush=True)
        log = os.path.join(ROOT, "seeded/LOG.jsonl")
        lines = [json.loads(l) for l in open(log)] if os.path.exists(log) else []
        lines = [l for l in lines if l["id"] != m["id"]] + [line]
        open(log, "w").write("".join(json.dumps(l) + "\n" for l in lines))
