#!/bin/sh
# Prints the axioms each theorem of MANIFEST.json depends on. Needs a finished 'lake build' in lean/.
cd "$(dirname "$0")/.." || exit 1
f=$(mktemp /tmp/axioms.XXXXXX.lean)
python3 - > "$f" <<'P'
import json
print("import Verif")
seen = []
for c in json.load(open("MANIFEST.json"))["claims"]:
    for t in c["theorems"]:
        if t not in seen:
            seen.append(t)
            print("#print axioms " + t)
P
(cd lean && lake env lean "$f") | tr '\n' ' ' | sed "s/ *'Shutter/\nShutter/g; s/' depends on/ depends on/g; s/' does not/ does not/g" | tr -s ' ' | sed '/^$/d'
echo
rm -f "$f"
