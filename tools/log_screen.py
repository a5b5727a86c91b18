#!/usr/bin/env python3
"""Appends the results of screen.py to seeded/LOG.jsonl.  usage: log_screen.py results.jsonl notes.json

Only edits that some theorem noticed, and edits that none noticed with a reason in notes.json ({"definition": reason}), are logged, each once.
The edits are made by rule, so "claim_broken" names the definition and what it is for. "theorems_failed" are the theorems whose proofs use the
first declaration that failed; others may have failed as well.
"""
import json, os, sys
log = os.path.join(os.path.dirname(os.path.abspath(__file__)), "..", "seeded", "LOG.jsonl")
notes = json.load(open(sys.argv[2]))
seen = {(d["file"], d["edit"]["old"], d["edit"]["new"]) for d in map(json.loads, open(log)) if isinstance(d["edit"], dict)}
n = 0
with open(log, "a") as out:
    for l in open(sys.argv[1]):
        d = json.loads(l); k = ("lean/Verif/" + d["file"], d["old"], d["new"])
        note = notes.get(d["def"]) or (notes["fuel"] if d["result"] == "survived" and "| _ + 1," in d["old"] and d["old"].replace("| _ + 1,", "|") in (d["new"].replace("| _,", "|"), d["new"].replace("| _ + 0,", "|")) else None)
        if k in seen or not (d["result"] == "killed" or d["result"] == "survived" and note):
            if d["result"] == "survived" and k not in seen: print("not logged:", d["def"])
            continue
        doc = " ".join(d["doc"].split())
        seen.add(k); n += 1
        out.write(json.dumps({"definition": d["def"], "file": k[0], "edit": {"old": d["old"], "new": d["new"]},
            "claim_broken": ("behaviour of %s: %s" % (d["def"], doc) if d["result"] == "killed" else "none: " + note),
            "expected": [], "theorems_failed": d.get("failed") or [], "survived": [], "theorems_tightened": [],
            "note": "made by tools/screen.py; first declaration that failed: %s" % ", ".join(d["broken"]) if d["result"] == "killed" else "made by tools/screen.py; equivalent edit"}) + "\n")
print("logged:", n)
