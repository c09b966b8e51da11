#!/bin/sh
# Prints the axioms of every theorem in MANIFEST.json, and how many use which.
cd /verif/lean
python3 - > /tmp/axioms.lean <<'P'
import json
print('import Verif')
for c in json.load(open('/verif/MANIFEST.json'))['claims']:
    for t in c['theorems']: print('#print axioms', t)
P
lake env lean /tmp/axioms.lean | tr -d '\n' | sed "s/'Verif/\n'Verif/g" | sed 's/^[^ ]* //' | sort | uniq -c
