#!/usr/bin/env python3
"""Writes MANIFEST.json.  Each entry: id -> (status, namespace, theorem names, note)."""
import json, os
HERE = os.path.dirname(os.path.dirname(os.path.abspath(__file__)))
C = {}
def c(pid, status, ns, thms, note=""):
    C[pid] = (status, ["Xoscar.%s.%s" % (ns, t) if not t.startswith("Xoscar.") else t for t in thms.split()], note)

exec(open(os.path.join(HERE, "tools", "claims.py")).read())

ids = [json.loads(l)["id"] for l in open(os.path.join(HERE, "properties.jsonl"))]
claims = []
for i in ids:
    if i in C:
        s, t, n = C[i]
        claims.append({"property": i, "status": s, "theorems": t, "note": n})
    else:
        print("no claim for", i)
json.dump({"claims": claims}, open(os.path.join(HERE, "MANIFEST.json"), "w"), indent=1, ensure_ascii=False)
