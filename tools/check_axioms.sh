#!/bin/sh
# Prints every theorem of the manifest that depends on an axiom other than the three standard ones.
cd "$(dirname "$0")/../lean" || exit 1
python3 - <<'PY' > /tmp/axcheck.lean
import json
print("import Verif")
for c in json.load(open("../MANIFEST.json"))["claims"]:
    for t in c["theorems"]: print("#print axioms", t)
PY
lake env lean /tmp/axcheck.lean | tr '\n' ' ' | sed "s/'Rtmfp/\n'Rtmfp/g" | grep -v "does not depend" | sed 's/propext\|Classical.choice\|Quot.sound\|,//g' | grep -v '\[ *\]' | grep "depends"
lake env lean /tmp/axcheck.lean | grep -c "^'"
grep -rnE 'sorry|admit|^axiom |native_decide|bv_decide|implemented_by|unsafe |maxHeartbeats 0' Verif --include=*.lean
