#!/usr/bin/env python3
"""Seeds one bug into a scratch copy of the model and reports which manifest theorems stop proving.

usage: mutate.py muts.json   -- list of {"def","file","old","new","claim","expect":[ids]}
The scratch copy is /tmp/mut (outside /verif). A theorem whose proof breaks is replaced by `sorry` in the scratch copy so
that everything downstream is still checked; the theorems that failed are those that then depend on sorryAx.
Prints one JSON line per mutation.
"""
import json, os, re, subprocess, sys, shutil
BASE=os.environ.get("MUT_BASE","/verif")  # a frozen copy of /verif may be given, so that work can go on meanwhile
SRC=BASE+"/lean"; DST="/tmp/mut/lean"
def sync():
    os.makedirs(DST, exist_ok=True)
    subprocess.run(["rsync","-a","--delete","--exclude",".lake/build",SRC+"/",DST+"/"],check=True) if shutil.which("rsync") else copy()
def copy():
    for root,ds,fs in os.walk(SRC):
        if ".lake" in root: continue
        rel=os.path.relpath(root,SRC); d=os.path.join(DST,rel); os.makedirs(d,exist_ok=True)
        for f in fs:
            a=os.path.join(root,f); b=os.path.join(d,f)
            ca=open(a,'rb').read()
            if not os.path.exists(b) or open(b,'rb').read()!=ca: open(b,'wb').write(ca)
    for root,ds,fs in os.walk(DST):
        if ".lake" in root: continue
        for f in fs:
            b=os.path.join(root,f)
            if not os.path.exists(os.path.join(SRC,os.path.relpath(b,DST))): os.remove(b)
    if not os.path.exists(DST+"/.lake") and os.path.exists(SRC+"/.lake"): shutil.copytree(SRC+"/.lake",DST+"/.lake",symlinks=True)
DECL=re.compile(r"^(?:@\[[^\]]*\]\s*)?(?:private\s+|protected\s+|noncomputable\s+)*(theorem|lemma|def|instance|example|abbrev|inductive|structure|class|variable|namespace|section|end|open|/--|/-!)\b|^(/--|/-!)")
def fix(path,line):
    ls=open(path).read().split("\n")
    i=line-1
    while i>=0 and not re.match(r"^(?:@\[[^\]]*\]\s*)?(?:private\s+|protected\s+)?(theorem|lemma|def|instance|example|abbrev)\b",ls[i]): i-=1
    if i<0: return None
    j=i+1
    while j<len(ls) and not DECL.match(ls[j]): j+=1
    text="\n".join(ls[i:j])
    m=re.match(r"^(?:@\[[^\]]*\]\s*)?(?:private\s+|protected\s+)?(theorem|lemma|def|instance|example|abbrev)\s*(\S*)",text)
    kind,name=m.group(1),m.group(2)
    if kind in("def","abbrev"): return ("DEF",name)
    if kind=="example":
        new="example : True := trivial\n"
    else:
        mm=re.search(r":=\s*by\n|:=\n|:= by .*\n|:=\s*(?=[^\s\n].*$)|\n(?=  \| )",text)
        cands=[x for x in re.finditer(r":= by\b|:=\n",text)]
        w=re.search(r" where\n",text)
        eqs=re.search(r"\n  \| ",text)
        if eqs and ":=" not in text[:eqs.start()]: new=text[:eqs.start()]+" := by sorry\n"
        elif w and (not cands or w.start()<cands[0].start()): new=text[:w.start()]+" := by sorry\n"
        elif cands: new=text[:cands[0].start()]+":= by sorry\n"
        else:
            k=text.rfind(":=")
            if k<0: return ("BAD",name)
            new=text[:k]+":= by sorry\n"
        if new.strip()==text.strip(): return ("STUCK",name)
    ls[i:j]=new.split("\n")
    open(path,"w").write("\n".join(ls)); return (kind,name if kind!="example" else "example")
def strip(path):
    ls=open(path).read().split("\n"); i=0; n=0
    while i<len(ls):
        if re.match(r"^example\b",ls[i]) and ls[i]!="example : True := trivial":
            j=i+1
            while j<len(ls) and not DECL.match(ls[j]): j+=1
            ls[i:j]=["example : True := trivial",""]; n+=1
        i+=1
    open(path,"w").write("\n".join(ls)); return n
def drop(path):
    ls=open(path).read().split("\n"); names=[]
    for i in range(len(ls)-1,-1,-1):
        if not re.match(r"^theorem\b",ls[i]): continue
        j=i+1
        while j<len(ls) and not DECL.match(ls[j]): j+=1
        if "decide" in "\n".join(ls[i:j]):
            r=fix(path,i+1)
            if r and r[0]=="theorem": names.append(r[1]); ls=open(path).read().split("\n")
    return names
def build():
    r=subprocess.run(["lake","build"],cwd=DST,capture_output=True,text=True)
    return r.returncode,r.stdout+r.stderr
def run(m):
    copy()
    p=os.path.join(DST,"Verif",m["file"])
    s=open(p).read()
    n=s.count(m["old"])
    if n!=m.get("count",1): return dict(m,error="old text occurs %d times"%n)
    open(p,"w").write(s.replace(m["old"],m["new"]))
    broken=[]; gone=[]
    for it in range(400):
        rc,out=build()
        if rc==0: break
        errs=re.findall(r"^error: (Verif/\S+\.lean):(\d+):\d+:",out,re.M)
        if not errs:
            # a concrete example that is now false may exhaust the memory: examples are not theorems, so drop those of the file
            oom=re.findall(r"Building (Verif\.Props\.\S+)",out) if "exited with code 137" in out else []
            oom=[f for f in oom if strip(os.path.join(DST,f.replace(".","/")+".lean"))]
            if oom: continue
            # then give up on the theorems there that are proved by evaluation; they count neither as failed nor as proved
            for f in re.findall(r"^- (Verif\.Props\.\S+)",out,re.M) if "exited with code 137" in out else []: oom+=drop(os.path.join(DST,f.replace(".","/")+".lean"))
            gone+=oom
            if oom: continue
            return dict(m,error=out[-600:])
        done=False
        # one error per file per round, from the bottom up would need care with line shifts: take last error in each file
        seen={}
        for f,l in errs: seen.setdefault(f,[]).append(int(l))
        for f,lsn in seen.items():
            ls=open(os.path.join(DST,f)).read().split("\n"); starts=set()
            for l in lsn:
                i=min(l,len(ls))-1
                while i>=0 and not re.match(r"^(?:@\[[^\]]*\]\s*)?(?:private\s+|protected\s+)?(theorem|lemma|def|instance|example|abbrev)\b",ls[i]): i-=1
                starts.add(i+1)
            for l in sorted(starts,reverse=True):
                r=fix(os.path.join(DST,f),l)
                if r is None or r[0] in("DEF","BAD","STUCK"):
                    return dict(m,error="cannot skip %s at %s:%d\n%s"%(r,f,l,out[:800]),broken=broken)
                if r[1] not in broken: broken.append(r[1])
    mf=json.load(open(BASE+"/MANIFEST.json"))
    names=[t for c in mf["claims"] for t in c["theorems"]]
    chk="import Verif\n"+"\n".join("#print axioms "+t for t in names)
    open("/tmp/mut/Check.lean","w").write(chk)
    r=subprocess.run(["lake","env","lean","/tmp/mut/Check.lean"],cwd=DST,capture_output=True,text=True)
    out=(r.stdout+r.stderr).replace("\n"," ")
    failed=[]
    for mm in re.finditer(r"'(Stl4go\.\S+)' depends on axioms: \[([^\]]*)\]",out):
        if "sorryAx" in mm.group(2): failed.append(mm.group(1).replace("Stl4go.",""))
    missing=[t.replace("Stl4go.","") for t in names if ("'%s'"%t) not in out]
    res=dict(m); res["failed"]=[t for t in failed if t not in gone]; res["broken_lemmas"]=broken
    if missing: res["missing"]=missing
    if gone: res["unchecked"]=gone
    return res
if __name__=="__main__":
    for m in json.load(open(sys.argv[1])):
        r=run(m)
        print(json.dumps(r,ensure_ascii=False),flush=True)
        out=sys.argv[2] if len(sys.argv)>2 else None
        if out: open(out,"a").write(json.dumps(r,ensure_ascii=False)+"\n")
