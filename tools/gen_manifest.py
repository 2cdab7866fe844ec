#!/usr/bin/env python3
"""Regenerate /verif/MANIFEST.json from tools/claims.json, checking that every theorem name exists in the sources."""
import json, pathlib, re, sys
root = pathlib.Path(__file__).resolve().parent.parent
claims = json.loads((root / "tools" / "claims.json").read_text())
names = set()
for f in (root / "lean" / "Verif").rglob("*.lean"):
    for m in re.finditer(r"^\s*(?:private\s+)?(?:theorem|lemma)\s+([^\s({\[:]+)", f.read_text(), re.M):
        names.add(m.group(1))
props = [json.loads(l)["id"] for l in (root / "properties.jsonl").read_text().splitlines() if l.strip()]
out, bad = [], []
for c in claims:
    ths = c["theorems"]
    for t in ths:
        if t not in names:
            bad.append(t)
    out.append({"property": c["property"], "status": c["status"], "theorems": ["HS." + t for t in ths], "note": c["note"]})
missing = [p for p in props if p not in {c["property"] for c in claims}]
if bad:
    sys.exit("unknown theorems: " + ", ".join(bad))
if missing:
    print("no claim yet for:", " ".join(missing))
out.sort(key=lambda c: c["property"])
(root / "MANIFEST.json").write_text(json.dumps({"claims": out}, indent=1) + "\n")
print(len(out), "claims")
