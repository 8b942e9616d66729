#!/bin/sh
# Print the axioms of every theorem listed in MANIFEST.json (run after `lake build`).
cd "$(dirname "$0")/../lean" || exit 1
tmp=$(mktemp /tmp/axiomsXXXXXX.lean)
python3 - > "$tmp" <<'P'
import json
print("import Verif")
for c in json.load(open("../MANIFEST.json"))["claims"]:
    for t in c["theorems"]:
        print("#print axioms", t)
P
lake env lean "$tmp" | tr '\n' ' ' | sed "s/ '/\n'/g" | sed "s/.*depends on axioms: //" | sort | uniq -c
rm -f "$tmp"
