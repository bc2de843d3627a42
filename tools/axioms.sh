#!/bin/sh
# prints, for every theorem of MANIFEST.json, the axioms it depends on, with counts (run after lake build)
cd "$(dirname "$0")/../lean" && python3 - > /tmp/ax.lean <<'P'
import json
print('import Verif')
for c in json.load(open('../MANIFEST.json'))['claims']:
    for t in c['theorems']: print('#print axioms', t)
P
lake env lean /tmp/ax.lean | sed "s/^.*does not depend/does not depend/;s/^.*depends on axioms/depends on axioms/" | sort | uniq -c
