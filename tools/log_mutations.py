#!/usr/bin/env python3
"""Appends the results of mutate.py to seeded/LOG.jsonl.  usage: log_mutations.py results.jsonl [tightened.json [checked]]

"theorems_failed" lists the manifest theorems whose proof, or a lemma it uses, no longer checks after the edit. A failing
proof does not by itself show that the theorem became false; what matters is that no theorem whose claim became false survived.
tightened.json maps the index of a result to the names of the theorems tightened because of it. checked names the properties that
were checked, if the scratch copy held only those; other theorems may have failed as well.
"""
import json, os, sys
log = os.path.join(os.path.dirname(os.path.abspath(__file__)), "..", "seeded", "LOG.jsonl")
tight = json.load(open(sys.argv[2])) if len(sys.argv) > 2 else {}
survivors = 0
with open(log, "a") as out:
    for i, l in enumerate(open(sys.argv[1])):
        d = json.loads(l)
        failed = d.get("failed") or []
        missed = [e for e in d["expect"] if not any(t == e or t.startswith(e + "_") for t in failed)]
        if d.get("error"): print("ERROR, not logged:", d["def"], str(d["error"])[:200]); continue
        if missed: survivors += 1; print("SURVIVED:", d["def"], missed, d["claim"])
        out.write(json.dumps({"definition": d["def"], "file": "lean/Verif/" + d["file"],
            "edit": {"old": d["old"], "new": d["new"]}, "claim_broken": d["claim"], "expected": d["expect"],
            "theorems_failed": failed, "survived": missed, "theorems_tightened": tight.get(str(i), []),
            **({"checked": sys.argv[3]} if len(sys.argv) > 3 else {})}) + "\n")
print("survivors:", survivors)
