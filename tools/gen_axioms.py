#!/usr/bin/env python3
"""Rewrites the list of axioms per manifest theorem in DESIGN.md from `#print axioms` (needs a finished `lake build`)."""
import json, re, subprocess
V="/verif"
names=[t for c in json.load(open(V+"/MANIFEST.json"))["claims"] for t in c["theorems"]]
open("/tmp/Axioms.lean","w").write("import Verif\n"+"\n".join("#print axioms "+t for t in names))
out=subprocess.run(["lake","env","lean","/tmp/Axioms.lean"],cwd=V+"/lean",capture_output=True,text=True).stdout.replace("\n"," ")
groups={}
for t in names:
    m=re.search(r"'%s' (?:depends on axioms: \[([^\]]*)\]|does not depend on any axioms)"%re.escape(t),out)
    assert m,t
    groups.setdefault(m.group(1) or "none",[]).append(t.replace("Stl4go.",""))
txt=""
for g in sorted(groups,key=lambda g:-len(groups[g])):
    txt+="* %s (%d): %s\n"%("no axioms" if g=="none" else "`"+g+"`",len(groups[g]),", ".join(groups[g]))
p=V+"/DESIGN.md"; s=open(p).read()
s=re.sub(r"(<!-- axioms:begin -->\n).*?(<!-- axioms:end -->)",lambda m:m.group(1)+txt+m.group(2),s,flags=re.S)
open(p,"w").write(s); print({g:len(v) for g,v in groups.items()})
