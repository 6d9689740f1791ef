#!/usr/bin/env python3
"""Append the attempts of mutate.py that are not yet recorded to seeded/LOG.jsonl.

usage: log.py MUTANTS.json OUT.jsonl [TIGHTENED.json]"""
import json, os, sys
root = os.path.dirname(os.path.dirname(os.path.abspath(__file__)))
mutants = {m["id"]: m for m in json.load(open(sys.argv[1]))}
tightened = json.load(open(sys.argv[3])) if len(sys.argv) > 3 else {}
path = f"{root}/seeded/LOG.jsonl"
done = {json.loads(l)["id"] for l in open(path)} if os.path.exists(path) else set()
with open(path, "a") as log:
    for line in open(sys.argv[2]):
        r = json.loads(line)
        if r["id"] in done: continue
        m = mutants[r["id"]]
        log.write(json.dumps({"id": r["id"], "definition": m["definition"], "file": "lean/Verif/" + m["file"],
                              "edit": m["edit"], "old": m["old"], "new": m["new"], "claim_broken": m["claim"],
                              "proofs_failed": r["failed"], "theorems_failed": r["broken"],
                              "definitions_stuck": r["stuck"], "theorems_tightened": tightened.get(r["id"], [])},
                             ensure_ascii=False) + "\n")
