#!/bin/bash
# regenerate Verif.lean imports and MANIFEST.json, commit
cd "$(dirname "$0")/.."
(cd lean && find Verif -name '*.lean' | sort | sed 's/\.lean//; s/\//./g; s/^/import /' > Verif.lean)
python3 tools/mkmanifest.py
git add -A && git commit -qm "$1"
