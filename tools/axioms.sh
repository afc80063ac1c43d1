#!/bin/sh
# Writes tools/axioms.txt: the axioms of every theorem in MANIFEST.json.  Needs a finished `lake build`.
cd "$(dirname "$0")/../lean" || exit 1
T=$(mktemp -d)
python3 - "$T/ax.lean" <<'PY'
import json, sys
t = []
for c in json.load(open("../MANIFEST.json"))["claims"]: t += c["theorems"]
open(sys.argv[1], "w").write("import Verif\n" + "".join("#print axioms %s\n" % x for x in dict.fromkeys(t)))
PY
lake env lean "$T/ax.lean" > ../tools/axioms.txt
rm -r "$T"
