#!/usr/bin/env python3
"""Seeded-bug runner.  usage: mutate.py MUTANTS.json SCRATCH OUT.jsonl
Each mutant: {"file","old","new","definition","edit","claim"}, optionally "also": [{"file","old","new"}] in other files.  Works in SCRATCH (a copy of /verif/lean with build output).
For each mutant: apply, `lake build` with keep-going, map error lines to the enclosing theorem/def, restore."""
import json, sys, subprocess, re, os
muts = json.load(open(sys.argv[1])); D = sys.argv[2]; out = sys.argv[3]
done = set()
if os.path.exists(out):
    for l in open(out): done.add(json.loads(l)["key"])
decl = re.compile(r'^\s*(?:@\[[^\]]*\]\s*)?(?:private |protected |noncomputable )*(theorem|lemma|def|example|instance|structure|inductive|abbrev)\s*(\S*)')
def encl(f, ln):
    lines = open(os.path.join(D, f)).read().split('\n')
    for i in range(min(ln, len(lines)) - 1, -1, -1):
        m = decl.match(lines[i])
        if m: return (m.group(2) if m.group(1) != 'example' else 'example') 
    return '?'
for m in muts:
    key = m["file"] + '|' + m["old"] + '|' + m["new"]
    if key in done: continue
    path = os.path.join(D, "Verif", m["file"]); src = open(path).read()
    n = src.count(m["old"])
    if n != m.get("count", 1):
        print("BAD MUTANT (count %d)" % n, key); continue
    also = []
    for a in m.get("also", []):
        ap = os.path.join(D, "Verif", a["file"]); asrc = open(ap).read()
        if asrc.count(a["old"]) != a.get("count", 1): print("BAD also", key, a); also = None; break
        also.append((ap, asrc, asrc.replace(a["old"], a["new"])))
    if also is None: continue
    open(path, "w").write(src.replace(m["old"], m["new"]))
    for ap, _, anew in also: open(ap, "w").write(anew)
    try:
        r = subprocess.run(["lake", "build"], cwd=D, capture_output=True, text=True, timeout=3000)
        txt = r.stdout + r.stderr
        errs = re.findall(r'error: (Verif/\S+\.lean):(\d+):(\d+)', txt)
        fails = []
        for f, ln, _ in errs:
            e = f.split('/')[-1][:-5] + '.' + encl(f, int(ln))
            if e not in fails: fails.append(e)
    except subprocess.TimeoutExpired:
        fails = ["TIMEOUT"]; r = None
    finally:
        open(path, "w").write(src)
        for ap, asrc, _ in also: open(ap, "w").write(asrc)
    rec = dict(m); rec["key"] = key; rec["failed"] = fails; rec["survived"] = (r is not None and r.returncode == 0)
    open(out, "a").write(json.dumps(rec) + "\n")
    print(("SURVIVED " if rec["survived"] else "killed ") + m["definition"] + ": " + m["edit"] + " -> " + ", ".join(fails[:6]), flush=True)
