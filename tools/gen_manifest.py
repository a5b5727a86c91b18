#!/usr/bin/env python3
"""Collects theorem names Cnn_* from lean/Verif/Props and writes MANIFEST.json. Status and notes come from NOTES."""
import json, os, re, glob
root = os.path.join(os.path.dirname(os.path.abspath(__file__)), "..")
NOTES = json.load(open(os.path.join(root, "tools", "notes.json")))
thms = {}
for f in sorted(glob.glob(os.path.join(root, "lean/Verif/Props/*.lean"))):
    ns = "Stl4go"
    for line in open(f):
        m = re.match(r"\s*(?:@\[[^\]]*\]\s*)?theorem\s+(C(\d+)_\S+)", line)
        if m: thms.setdefault("C" + m.group(2), []).append(ns + "." + m.group(1))
claims = []
for line in open(os.path.join(root, "properties.jsonl")):
    pid = json.loads(line)["id"]
    n = NOTES.get(pid, {})
    if pid in thms or n:
        claims.append(dict(property=pid, status=n.get("status", "proved"), theorems=thms.get(pid, []), note=n.get("note", "")))
    else:
        print("no theorem yet:", pid)
json.dump({"claims": claims}, open(os.path.join(root, "MANIFEST.json"), "w"), indent=1, ensure_ascii=False)
print(len(claims), "claims", sum(len(c["theorems"]) for c in claims), "theorems")
