#!/usr/bin/env python3
"""setstatus.py Cnn status note: record the status of one property in status.json."""
import json, pathlib, sys
p = pathlib.Path(__file__).resolve().parent / "status.json"
d = json.loads(p.read_text())
d[sys.argv[1]] = {"status": sys.argv[2], "note": sys.argv[3]}
p.write_text(json.dumps(dict(sorted(d.items())), indent=1) + "\n")
