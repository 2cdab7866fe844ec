#!/usr/bin/env python3
"""Writes seeded/LOG.jsonl from seeded/RUN.jsonl (one line per attempt, written by the mutation runner)."""
import json, os
D = os.path.join(os.path.dirname(__file__), "..", "seeded")
# what was done about an attempt: theorems added or tightened in /verif, and a remark
TIGHT = {
 "N44": (["C62_blind", "C62_refused", "C62_only_msgpack"], "survived when run; pickled blobs became a property of their own"),
 "N45": (["C48_plain"], "survived when run; reading a missing attribute is now covered"),
 "N46": ([], "the edit does not elaborate (no such variable in that branch); see P01"),
 "N47": (["C39_applied", "C39_followed_partial", "C46_step_partial", "C46_load_partial", "C46_before_partial"],
         "only the counterexamples failed when run; the specification used the model's own schedVal and is now stated with SchedIs"),
 "N18": (["C58_schemas_partial", "C58_partial"], ""), "N19": (["C58_schemas_partial", "C58_partial"], ""), "N20": (["C58_schemas_partial", "C58_partial"], ""),
 "N29": ([], "equivalent edit: the distance is symmetric (C31_symm); proofs by induction on the definition break"),
 "N51": ([], "survives: only seen for maps with a repeated key, which packing a dict never produces"),
 "N55": (["C56_cut"], "survived when run"),
 "N59": (["C57_user_error", "C57_stateful_partial"], "survived when run"),
 "N63": (["C66_recorded", "C66_meaning", "C66_advice_partial"], "survived when run; what the schema records for a default became a property of its own"),
}
try: TIGHT.update({k: tuple(v) for k, v in json.load(open(os.path.join(D, "tightened.json"))).items()})
except FileNotFoundError: pass
rows = [json.loads(l) for l in open(os.path.join(D, "RUN.jsonl"))]
with open(os.path.join(D, "LOG.jsonl"), "w") as f:
    for r in rows:
        t, remark = TIGHT.get(r["id"], ([], ""))
        o = {"id": r["id"], "definition": r["definition"], "edit": r["edit"], "claim_broken": r["claim_broken"],
             "theorems_failed": r.get("theorems_failed") or [], "theorems_tightened": t,
             "survived": not r.get("caught")}
        note = "; ".join(x for x in (remark, r.get("note") or "", r.get("problem") or "") if x)
        if note: o["note"] = note
        f.write(json.dumps(o) + "\n")
print(len(rows))
