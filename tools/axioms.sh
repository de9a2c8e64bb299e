#!/bin/sh
# Print every axiom used by the theorems of MANIFEST.json other than propext, Classical.choice, Quot.sound.
cd "$(dirname "$0")/../lean" && { echo "import Verif"; python3 -c "
import json
for c in json.load(open('../MANIFEST.json'))['claims']:
  for t in c['theorems']: print('#print axioms',t)"; } > /tmp/ax.lean && lake env lean /tmp/ax.lean | tr -d '\n' | sed "s/'Verif/\n'Verif/g" | grep -v "does not depend" | sed 's/propext//;s/Classical.choice//;s/Quot.sound//' | grep -v '\[[, ]*\]$' ; echo done
