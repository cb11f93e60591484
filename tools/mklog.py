#!/usr/bin/env python3
"""mklog.py OUT.jsonl... : turn results of mutate.py into lines of seeded/LOG.jsonl.
Extra hand-written lines (edits redone by hand, theorems tightened) are in seeded/extra.json."""
import json, sys, os
root = os.path.join(os.path.dirname(os.path.abspath(__file__)), "..")
log = os.path.join(root, "seeded/LOG.jsonl")
have = [json.loads(l) for l in open(log)] if os.path.exists(log) else []
byid = {r["id"]: r for r in have}
for f in sys.argv[1:]:
    for l in open(f):
        r = json.loads(l)
        if r["status"] != "ok": continue
        byid[r["id"]] = {"id": r["id"], "definition": r["definition"], "edit": r["edit"],
            "claim": r["claim"], "theorems_failed": [x.split("Mu.", 1)[-1] for x in r["failed_properties"]],
            "lemmas_broken_first": r["broken_proofs"][:6], "examples_failed": r["broken_examples"],
            "theorems_tightened": []}
ex = os.path.join(root, "seeded/extra.json")
if os.path.exists(ex):
    for r in json.load(open(ex)):
        byid[r["id"]] = {**byid.get(r["id"], {}), **r}
with open(log, "w") as o:
    for k in sorted(byid): o.write(json.dumps(byid[k]) + "\n")
print(len(byid))
