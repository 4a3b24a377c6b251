#!/bin/bash
# Regenerates properties.jsonl and MANIFEST.json and prints the axioms of every claimed theorem.
set -e
cd /verif
python3 tools/props.py
python3 tools/manifest.py
cd lean && lake build 2>&1 | tail -1
lake env lean /tmp/axioms.lean | sed 's/.*depends on axioms: //' | sort | uniq -c
grep -rnE 'native_decide|bv_decide|^axiom |implemented_by|unsafe ' Verif || true
