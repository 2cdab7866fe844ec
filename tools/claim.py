#!/usr/bin/env python3
"""Set or replace claims: reads a JSON list of claims on stdin and merges it into tools/claims.json."""
import json, pathlib, sys
p = pathlib.Path(__file__).resolve().parent / "claims.json"
old = {c["property"]: c for c in json.loads(p.read_text())}
for c in json.load(sys.stdin):
    old[c["property"]] = c
p.write_text(json.dumps([old[k] for k in sorted(old)], indent=1) + "\n")
