#!/usr/bin/env python3
"""tools/log.py: moves the records of /tmp/scratch/out.jsonl into seeded/LOG.jsonl."""
import json, os
src='/tmp/scratch/out.jsonl'; dst='/verif/seeded/LOG.jsonl'
if os.path.exists(src):
    with open(dst,'a') as o:
        for l in open(src):
            r=json.loads(l)
            o.write(json.dumps({"definition":r["definition"],"edit":r["edit"],"claim":r["claim"],"theorems_failed":r["failed"],"theorems_tightened":r["tightened"],**({"note":r["note"]} if "note" in r else {})})+"\n")
    os.remove(src)
