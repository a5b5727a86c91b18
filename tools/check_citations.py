#!/usr/bin/env python3
"""For every source citation in the model, print the first and last cited line of /repo, for review."""
import glob, os, re, sys
root = os.path.join(os.path.dirname(__file__), "..", "lean", "Verif", "Model")
files = sys.argv[1:] or sorted(glob.glob(os.path.join(root, "*.lean")))
bad = 0
for f in files:
    text = open(f).read()
    for m in re.finditer(r"/--(.*?)-/\s*\n(?:@\[.*?\]\s*)?(?:def|structure|inductive|class|instance|abbrev)\s+(\S+)", text, re.S):
        doc, name = m.groups()
        src = None
        for c in re.finditer(r"(?:/repo/([\w.]+):)?(\d+(?:-\d+)?(?:,\d+(?:-\d+)?)*)", doc):
            if c.group(1): src = c.group(1)
            elif doc[c.start() - 1:c.start()] != "`" or src is None: continue
            lines = open("/repo/" + src).read().split("\n")
            for r in c.group(2).split(","):
                a, _, b = r.partition("-"); b = b or a
                if int(b) > len(lines): bad += 1; print("OUT OF RANGE", f, name, r); continue
                print(f"{os.path.basename(f)}:{name} {src}:{r} | {lines[int(a)-1].strip()} ... {lines[int(b)-1].strip()}")
        if src is None: print(f"{os.path.basename(f)}:{name} NO CITATION")
sys.exit(bad)
