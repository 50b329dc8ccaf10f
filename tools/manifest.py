#!/usr/bin/env python3
"""Write MANIFEST.json from tools/claims.json and the theorem names found in lean/Verif/Props.

Theorem names are `Cnn_…`; every theorem in namespace Verif.Props is listed under its property.
claims.json maps property id -> [status, note]; properties without theorems are listed as partial
with an empty theorem list only if claims.json says so."""
import json, re, glob, os
root = os.path.join(os.path.dirname(__file__), "..")
claims = json.load(open(os.path.join(root, "tools/claims.json")))
thms = {}
for f in sorted(glob.glob(os.path.join(root, "lean/Verif/Props/*.lean"))):
    for m in re.finditer(r"^theorem (C(\d\d)_[A-Za-z0-9_']*)", open(f).read(), re.M):
        thms.setdefault("C" + m.group(2), []).append("Verif.Props." + m.group(1))
props = [json.loads(l)["id"] for l in open(os.path.join(root, "properties.jsonl"))]
out = []
for p in props:
    if p not in thms and p not in claims:
        print("no claim:", p); continue
    st, note = claims.get(p, ["proved", ""])
    if p not in claims: print("no note:", p)
    out.append({"property": p, "status": st, "theorems": thms.get(p, []), "note": note})
for p in thms:
    if p not in props: print("theorem for unknown property", p)
json.dump({"claims": out}, open(os.path.join(root, "MANIFEST.json"), "w"), indent=1)
