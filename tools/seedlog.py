#!/usr/bin/env python3
"""Append the results of tools/mutate.py to seeded/LOG.jsonl, one line for each mutation that is not there yet.

usage: seedlog.py RESULTS.jsonl [NOTES.json]   (notes: id -> {"tightened": [...], "note": "..."})
"""
import json
import os
import sys

LOG = "/verif/seeded/LOG.jsonl"
seen = set()
if os.path.exists(LOG):
    seen = {json.loads(l)["id"] for l in open(LOG) if l.strip()}
notes = json.load(open(sys.argv[2])) if len(sys.argv) > 2 else {}
with open(LOG, "a") as out:
    for line in open(sys.argv[1]):
        r = json.loads(line)
        if r.get("error") or r["id"] in seen:
            continue
        seen.add(r["id"])
        n = notes.get(r["id"], {})
        out.write(json.dumps({
            "id": r["id"],
            "definition": r["def"],
            "file": "lean/Verif/" + r["file"],
            "edit": r["edit"],
            "old": r["old"],
            "new": r["new"],
            "claim": r["claim"],
            "proofs_broken": r["broken"],
            "theorems_failed": r["failed"],
            "properties_failed": r["props"],
            "missed": r["missed"],
            "theorems_tightened": n.get("tightened", []),
            "note": n.get("note", ""),
        }, ensure_ascii=False) + "\n")
