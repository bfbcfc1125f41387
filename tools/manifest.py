#!/usr/bin/env python3
"""Writes MANIFEST.json from tools/claims.txt: lines `Cnn status thm1,thm2 | note`."""
import json, os
root = os.path.dirname(os.path.dirname(os.path.abspath(__file__)))
claims = []
for line in open(os.path.join(root, "tools", "claims.txt")):
    line = line.strip()
    if not line or line.startswith("#"):
        continue
    head, _, note = line.partition("|")
    pid, status, *thms = head.split()
    names = [("Ariadne.Props." + t) for t in ",".join(thms).split(",") if t]
    claims.append({"property": pid, "status": status, "theorems": names, "note": note.strip()})
props = [json.loads(l)["id"] for l in open(os.path.join(root, "properties.jsonl"))]
have = {c["property"] for c in claims}
missing = [p for p in props if p not in have]
print("claims", len(claims), "missing", missing)
json.dump({"claims": claims}, open(os.path.join(root, "MANIFEST.json"), "w"), indent=1)
