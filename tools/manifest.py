#!/usr/bin/env python3
"""Regenerate MANIFEST.json from the theorem names in lean/Verif/Props and tools/status.json.

A theorem belongs to property Cnn when its name starts with "Cnn_".  A property with no theorem is left out
unless tools/status.json gives it a status."""
import json, re, glob, os, collections
root = os.path.join(os.path.dirname(__file__), "..")
status = json.load(open(os.path.join(root, "tools/status.json")))
thms = collections.OrderedDict()
for f in sorted(glob.glob(os.path.join(root, "lean/Verif/Props/*.lean"))):
    for m in re.finditer(r"^theorem ((C\d+)_[A-Za-z0-9_']+)", open(f).read(), re.M):
        thms.setdefault(m.group(2), []).append("Chaff." + m.group(1))
props = [json.loads(l)["id"] for l in open(os.path.join(root, "properties.jsonl"))]
claims = []
for p in props:
    st = status.get(p, {})
    if p not in thms and not st:
        continue
    claims.append({"property": p,
                   "status": st.get("status", "proved"),
                   "theorems": thms.get(p, []),
                   "note": st.get("note", "")})
json.dump({"claims": claims}, open(os.path.join(root, "MANIFEST.json"), "w"), indent=1, ensure_ascii=False)
print(len(claims), "claims,", sum(len(c["theorems"]) for c in claims), "theorems,",
      "missing:", [p for p in props if p not in thms and p not in status])
