#!/usr/bin/env python3
"""mklog.py DEPS.txt OUT.jsonl... : appends mutation records to seeded/LOG.jsonl.  For a record whose first failure is a
lemma, the property theorems that rest on the lemma (and so are not proved any more) are listed as well."""
import sys, json, os
deps = {}
for l in open(sys.argv[1]):
    n, r = l.split(": ", 1); deps[n.split('.')[-1]] = set(x.split('.', 1)[-1] for x in r.split())
log = "/verif/seeded/LOG.jsonl"; os.makedirs("/verif/seeded", exist_ok=True)
have = set()
if os.path.exists(log):
    for l in open(log):
        d = json.loads(l); have.add((d["definition"], d["edit"]))
with open(log, "a") as f:
    for fn in sys.argv[2:]:
        for l in open(fn):
            m = json.loads(l)
            edit = m["edit"] + ": `" + m["old"].strip()[:120] + "` -> `" + m["new"].strip()[:120] + "`"
            if (m["definition"], edit) in have: continue
            fl = [x.split('.', 1)[1] for x in m["failed"] if '.' in x]
            prop = sorted(c for c, s in deps.items() if any(x in s for x in fl) and c not in fl)
            f.write(json.dumps({"definition": m["definition"], "file": "lean/Verif/" + m["file"],
              "edit": edit,
              "breaks": m["claim"], "failed": fl, "properties_not_proved": prop, "survived": m["survived"],
              "tightened": m.get("tightened", []), "note": m.get("note", "")}) + "\n")
