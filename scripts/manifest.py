#!/usr/bin/env python3
"""Regenerate MANIFEST.json from the property theorems in lean/Verif and scripts/status.json.

A property theorem is a theorem whose name starts with Cnn_. status.json maps property ids to
{"status": ..., "note": ...}; a property without theorems is left out unless it is listed there."""
import json, re, pathlib
root = pathlib.Path(__file__).resolve().parent.parent
thms = {}
for f in sorted((root / "lean" / "Verif").rglob("*.lean")):
    ns = []
    for line in f.read_text().splitlines():
        m = re.match(r"(namespace|section|noncomputable section|mutual|end)\b\s*(\S*)", line)
        if m:
            kind, name = m.groups()
            if kind == "namespace":
                ns.append(name)
            elif kind in ("section", "noncomputable section", "mutual"):
                ns.append(None)
            else:
                ns.pop()
        m = re.match(r"(?:@\[[^\]]*\]\s*)?(?:protected |private )?theorem ((C\d\d+)_[^\s:({\[]+)", line)
        if m:
            full = ".".join([n for n in ns if n] + [m.group(1)])
            thms.setdefault(m.group(2), []).append(full)
status = json.loads((root / "scripts" / "status.json").read_text())
ids = [json.loads(l)["id"] for l in (root / "properties.jsonl").read_text().splitlines() if l.strip()]
claims = []
for i in ids:
    st = status.get(i)
    if not st:
        if i in thms:
            print("no status for", i)
        continue
    claims.append({"property": i, "status": st["status"], "theorems": thms.get(i, []), "note": st["note"]})
    if st["status"] != "not_applicable" and i not in thms:
        print("no theorems for", i)
for i in thms:
    if i not in ids:
        print("theorems for unknown property", i)
(root / "MANIFEST.json").write_text(json.dumps({"claims": claims}, indent=1) + "\n")
print(len(claims), "claims,", sum(len(v) for v in thms.values()), "theorems")
