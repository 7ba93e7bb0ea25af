#!/bin/sh
# Print the axioms of every property theorem listed in MANIFEST.json (run after lake build).
cd "$(dirname "$0")/../lean" || exit 1
python3 - <<'PY' > /tmp/ax.lean
import json
print("import Verif")
for c in json.load(open("../MANIFEST.json"))["claims"]:
    for t in c["theorems"]:
        print("#print axioms", t)
PY
lake env lean /tmp/ax.lean | tr '\n' ' ' | sed "s/'Siren/\n'Siren/g" | grep -v "does not depend" | sed 's/.*axioms: //' | sort | uniq -c
