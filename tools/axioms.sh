#!/bin/sh
# Lists the axioms of every claimed theorem (run after `lake build`).
cd "$(dirname "$0")/../lean" || exit 1
f=$(mktemp --suffix=.lean)
echo 'import Verif' > "$f"
python3 - >> "$f" <<'P'
import json
for c in json.load(open('../MANIFEST.json'))['claims']:
    for t in c['theorems']:
        print('#print axioms', t)
P
lake env lean "$f" | tr '\n' ' ' | sed "s/'\([^']*\)' depends/\n\1 depends/g; s/'\([^']*\)' does/\n\1 does/g"
