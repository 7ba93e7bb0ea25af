#!/usr/bin/env python3
"""Apply wrong-program edits to a scratch copy of the model and record which theorems stop proving.

usage: mutate.py FILE.json   (a list of {"file", "def", "old", "new", "edit", "claim"[, "tightened"]})
Each edit is applied alone to /tmp/mut/lean, `lake build` is run, and one line is appended to seeded/LOG.jsonl unless
the edit survives and "record" is not set. FILE is relative to lean/Verif."""
import json, re, subprocess, sys, pathlib, shutil, bisect
root = pathlib.Path("/verif")
mut = pathlib.Path("/tmp/mut")
mut.mkdir(exist_ok=True)
subprocess.run(["rsync", "-a", "--delete", str(root / "lean") + "/", str(mut / "lean")], check=False) if shutil.which("rsync") else (
    shutil.rmtree(mut / "lean", ignore_errors=True), shutil.copytree(root / "lean", mut / "lean", symlinks=True))
def decls(path):
    out = []
    for n, l in enumerate(path.read_text().splitlines(), 1):
        m = re.match(r"(?:@\[[^\]]*\]\s*)?(?:private |protected |noncomputable )*(theorem|lemma|def|example|instance|abbrev|inductive|structure)\s*([^\s:({\[]*)", l)
        if m:
            out.append((n, m.group(2) or m.group(1)))
    return out
def failing(text):
    res = []
    for m in re.finditer(r"error: (?:\./)?(Verif/\S+?\.lean):(\d+):", text):
        p = mut / "lean" / m.group(1)
        d = decls(p)
        i = bisect.bisect_right([x[0] for x in d], int(m.group(2))) - 1
        name = d[i][1] if i >= 0 else "?"
        name = f"{p.parent.name}/{p.stem}:{name}"
        if name not in res:
            res.append(name)
    return res
for e in json.load(open(sys.argv[1])):
    f = mut / "lean" / "Verif" / e["file"]
    src = f.read_text()
    if src.count(e["old"]) != e.get("count", 1):
        print("!! count", src.count(e["old"]), e["def"], e["edit"]); continue
    f.write_text(src.replace(e["old"], e["new"]))
    r = subprocess.run(["lake", "build"], cwd=mut / "lean", capture_output=True, text=True)
    f.write_text(src)
    out = r.stdout + r.stderr
    fl = failing(out)
    killed = r.returncode != 0
    print("KILLED " if killed else "SURVIVED", e["def"], "|", e["edit"], "|", fl)
    if killed or e.get("record"):
        rec = {"definition": e["def"], "file": "lean/Verif/" + e["file"], "edit": e["edit"], "claim_broken": e["claim"],
               "theorems_failed": fl, "theorems_tightened": e.get("tightened", [])}
        with open(root / "seeded" / "LOG.jsonl", "a") as g:
            g.write(json.dumps(rec) + "\n")
subprocess.run(["lake", "build"], cwd=mut / "lean", capture_output=True)
