#!/bin/sh
# Prints the axioms of every theorem listed in MANIFEST.json.
cd "$(dirname "$0")/../lean" || exit 1
f=$(mktemp -d)/Ax.lean
python3 - > "$f" <<'P'
import json
print('import Verif')
for c in json.load(open('../MANIFEST.json'))['claims']:
    for t in c['theorems']: print('#print axioms',t)
P
lake env lean "$f"
