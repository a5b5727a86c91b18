#!/usr/bin/env python3
"""Seeds many small bugs into the model, one at a time, and looks for those that no proof notices.

usage: screen.py BASE OUT.jsonl [SEED [COUNT]]   -- BASE: a built frozen copy of /verif/lean
The edits are made by rules (RULES) at every place of every definition of Verif/Model, in random order. Works in /tmp/scr/w (outside /verif):
modules that depend on the edited one are compiled in order of import until the first proof fails. "theorems_failed" are the theorems of Verif/Props whose
proofs use the declaration that failed first, so others may fail as well. "invalid": the edited definition does not compile. "survived": everything
compiled. Needs /tmp/scr/deps.tsv (module, declaration, declarations used), from deps.lean.
"""
import json, os, random, re, subprocess, sys, concurrent.futures as cf
BASE, OUT = sys.argv[1], sys.argv[2]
seed = int(sys.argv[3]) if len(sys.argv) > 3 else 0
count = int(sys.argv[4]) if len(sys.argv) > 4 else 10**9
W = "/tmp/scr/w"; LIB = BASE + "/.lake/build/lib/lean"
WORKERS = int(os.environ.get("SCREEN_WORKERS", "2"))
RULES = [(r" < ", " ≤ "), (r" ≤ ", " < "), (r" > ", " ≥ "), (r" ≥ ", " > "), (r" = ", " ≠ "), (r" ≠ ", " = "), (r" \+ 1\b", ""), (r" \+ 1\b", " + 2"), (r" - 1\b", ""),
    (r"\btrue\b", "false"), (r"\bfalse\b", "true"), (r" && ", " || "), (r" \|\| ", " && "), (r" ∧ ", " ∨ "), (r" ∨ ", " ∧ "), (r"!(?=[\w(])", ""), (r"\bsome (\w+)\b", "none"),
    (r"\b0\b", "1"), (r"\b1\b", "0"), (r"\b2\b", "3"), (r"\b(less|GoOrd\.lt|GoEq\.eq|c|cmp|keyCmp|lt) (\S+|\([^()]*\)) (\S+|\([^()]*\))(?= |\)|$)", r"\1 \3 \2"), (r"\.take\b", ".drop"), (r"\.drop\b", ".take"),
    (r"\.panic\b", ".diverge"), (r"\.length\b", ".length.pred"), (r"\.next\b", ".prev"), (r"\.prev\b", ".next"), (r"\bfirst\b", "last"), (r"\blast\b", "first"),
    (r"lowerBound", "upperBound"), (r"upperBound", "lowerBound"), (r"\bisSome\b", "isNone"), (r"\bisNone\b", "isSome"), (r"\.1\b", ".2"), (r"\.2\b", ".1"), (r" \+ ", " - "), (r" - ", " + "),
    (r"\bif (.*?) then\b", r"if ¬ (\1) then"), (r"\bkey\b", "first"), (r"\.len\b", ".cap"), (r"\.cap\b", ".len"), (r"\.reverse\b", ""), (r" \+\+ ", " ++ [] ++ "), (r"\bpure \(\)", "GoM.panic")]
HEAD = re.compile(r"^(?:@\[[^\]]*\] )?(?:private |protected )?(theorem|lemma|def|instance|example|abbrev|structure|inductive)\s+(\S+)?")

def defs(text):
    for m in re.finditer(r"^def (\S+)", text, re.M):
        e = min(x for x in (text.find("\n\n", m.start()), text.find("\n/--", m.start()), len(text)) if x > 0)
        ns = re.findall(r"^namespace (\S+)|^end (\S+)", text[:m.start()], re.M)
        yield m.group(1), m.start(), e

def candidates():
    out = []
    for f in sorted(os.listdir(BASE + "/Verif/Model")):
        if f == "Basic.lean": continue
        text = open(f"{BASE}/Verif/Model/{f}").read()
        for name, i, e in defs(text):
            body = text[i:e]; k = body.find(":="); k2 = body.find("\n  |"); k = min(x for x in (k, k2, len(body)) if x > 0)
            doc = text[:i].rstrip().rsplit("/--", 1)[-1].strip(" -/\n")
            seen = set()
            for pat, new in RULES:
                for m in re.finditer(pat, body[k:], re.M):
                    b = body[:k] + body[k:][:m.start()] + m.expand(new) + body[k:][m.end():]
                    if b != body and b not in seen: seen.add(b); out.append((f, name, body, b, doc))
            ls = body.split("\n")
            for j in range(1, len(ls)):
                if re.match(r"^\s+[\w.]+[^:←=|]*$", ls[j]) and j + 1 < len(ls) and not re.match(r"^\s*(else|match|if|return|pure|let|\|)", ls[j]):
                    b = "\n".join(ls[:j] + ls[j+1:])
                    if b not in seen: seen.add(b); out.append((f, name, body, b, doc))
    return out

mods = {}
for root, _, fs in os.walk(BASE + "/Verif"):
    for f in fs:
        if f.endswith(".lean"):
            p = os.path.join(root, f); mods[os.path.relpath(p, BASE)[:-5].replace("/", ".")] = p
imports = {m: [x for x in re.findall(r"^import (\S+)", open(p).read(), re.M) if x in mods] for m, p in mods.items()}
users = {m: [] for m in mods}
for m, xs in imports.items():
    for x in xs: users[x].append(m)
def closure(m):
    seen, st = set(), [m]
    while st:
        x = st.pop()
        for u in users[x]:
            if u not in seen: seen.add(u); st.append(u)
    return seen
uses = {}; home = {}
for l in open("/tmp/scr/deps.tsv"):
    m, n, u = l.rstrip("\n").split("\t"); uses[n] = u.split(); home[n] = m
rev = {}
for n, us in uses.items():
    for u in us: rev.setdefault(u, []).append(n)
def theorems_using(n):
    seen, st = {n}, [n]
    while st:
        for y in rev.get(st.pop(), []):
            if y not in seen: seen.add(y); st.append(y)
    key = lambda t: (int(re.match(r"C(\d+)", t).group(1)), t)
    return sorted({x[7:] for x in seen if re.match(r"Stl4go\.C\d+_\w+$", x) and home[x].startswith("Verif.Props") and "_statement" not in x and ".match" not in x}, key=key)

def compile(m, src, root=BASE):
    o = f"{W}/{m.replace('.', '/')}.olean"; os.makedirs(os.path.dirname(o), exist_ok=True)
    if os.path.lexists(o): os.unlink(o)
    cmd = f"ulimit -v 40000000; exec timeout 400 lean -R {root} -o {o} {src}"
    r = subprocess.run(["bash", "-c", cmd], cwd=root, capture_output=True, text=True, env=ENV)
    return m, r.returncode, r.stdout + r.stderr
ENV = dict(os.environ)
r = subprocess.run(["lake", "env", "printenv", "LEAN_PATH"], cwd=BASE, capture_output=True, text=True)
ENV["LEAN_PATH"] = W + ":" + ":".join(p for p in r.stdout.strip().split(":") if not p.startswith(BASE + "/.lake/build") and p != ".lake/build/lib/lean")

def decl_at(path, line):
    ls = open(path).read().split("\n"); i = min(line, len(ls)) - 1
    while i >= 0 and not HEAD.match(ls[i]): i -= 1
    if i < 0: return None, None
    m = HEAD.match(ls[i]); return m.group(1), m.group(2)

def run(c):
    f, name, old, new, doc = c
    m0 = "Verif.Model." + f[:-5]
    subprocess.run(["rm", "-rf", W]); subprocess.run(["cp", "-rs", LIB, W], check=True)
    src = "/tmp/scr/root/Verif/Model/" + f; os.makedirs(os.path.dirname(src), exist_ok=True); text = open(mods[m0]).read(); assert text.count(old) == 1, name
    open(src, "w").write(text.replace(old, new))
    res = {"def": name, "file": "Model/" + f, "old": old, "new": new, "doc": doc}
    _, rc, out = compile(m0, src, "/tmp/scr/root")
    if rc: res["result"] = "invalid"; return res
    todo = closure(m0); todo.discard("Verif"); done = set(); running = {}; failed = []
    with cf.ThreadPoolExecutor(WORKERS) as ex:
        while True:
            if not failed:
                ready = sorted((x for x in todo if x not in running.values() and all(y not in todo for y in imports[x])), key=lambda x: (("Props" in x), len(open(mods[x]).read())))
                for x in ready[: WORKERS - len(running)]:
                    running[ex.submit(compile, x, mods[x])] = x
            if not running: break
            d, _ = cf.wait(running, return_when=cf.FIRST_COMPLETED)
            for fu in d:
                x = running.pop(fu); _, rc, out = fu.result()
                if rc == 0: todo.discard(x)
                else: failed.append((x, rc, out))
    if not failed: res["result"] = "survived"; return res
    x, rc, out = failed[0]
    errs = [int(e) for e in re.findall(r":(\d+):\d+: error", out)]
    broken = []
    for e in errs:
        kind, n = decl_at(mods[x], e)
        if n is None or kind == "example": n = "example"
        if n not in broken: broken.append(n)
    res["module"] = x; res["broken"] = broken; ths = set()
    if not errs: res["note"] = f"lean ended with code {rc} (time or memory)"
    for b in broken:
        for cand in ("Stl4go." + b, b):
            if cand in uses: ths.update(theorems_using(cand))
        if re.match(r"C\d+_", b): ths.add(b)
    res["failed"] = sorted(ths); res["result"] = "killed" if ths else "weak"
    return res

cs = candidates(); random.Random(seed).shuffle(cs)
done = set()
if os.path.exists(OUT):
    for l in open(OUT): d = json.loads(l); done.add((d["file"], d["old"], d["new"]))
print(len(cs), "candidates", flush=True)
n = 0
# at most a few per definition, spread over all of them
per = {}
for c in cs:
    if n >= count: break
    k = (c[0], c[1])
    if per.get(k, 0) >= int(os.environ.get("SCREEN_PER", "3")): continue
    if ("Model/" + c[0], c[2], c[3]) in done: per[k] = per.get(k, 0) + 1; continue
    r = run(c)
    if r["result"] != "invalid": per[k] = per.get(k, 0) + 1; n += 1
    with open(OUT, "a") as o: o.write(json.dumps(r) + "\n")
    print(r["result"], r["def"], r.get("module", ""), r.get("broken", ""), flush=True)
