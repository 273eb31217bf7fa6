#!/usr/bin/env python3
"""Writes MANIFEST.json: property -> status, theorems (taken from lean/Verif/Props by their prefix) and a note."""
import glob, json, os, re

root = os.path.dirname(os.path.dirname(os.path.abspath(__file__)))
status = json.load(open(os.path.join(root, "tools", "status.json")))
props = [json.loads(l) for l in open(os.path.join(root, "properties.jsonl")) if l.strip()]
thms = {}
for f in sorted(glob.glob(os.path.join(root, "lean/Verif/Props/*.lean"))):
    for m in re.finditer(r"^theorem (C\d+)(_\S+)", open(f).read(), re.M):
        thms.setdefault(m.group(1), []).append("Verif.Props." + m.group(1) + m.group(2))
claims = []
for p in props:
    i = p["id"]
    st = status.get(i)
    if st is None:
        continue
    claims.append({"property": i, "status": st["status"], "theorems": thms.get(i, []), "note": st["note"]})
    assert st["status"] == "not_applicable" or thms.get(i), i
json.dump({"claims": claims}, open(os.path.join(root, "MANIFEST.json"), "w"), indent=1)
print(len(claims), "claims;", sum(c["status"] == "proved" for c in claims), "proved")
