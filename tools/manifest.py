#!/usr/bin/env python3
"""Regenerate MANIFEST.json from the theorem names in lean/Verif/Props and the notes in tools/notes.json."""
import json, re, glob, os
root = os.path.dirname(os.path.dirname(os.path.abspath(__file__)))
props = [json.loads(l) for l in open(f"{root}/properties.jsonl") if l.strip()]
notes = json.load(open(f"{root}/tools/notes.json"))
thms = {}
for f in sorted(glob.glob(f"{root}/lean/Verif/Props/*.lean")):
    for m in re.finditer(r"^theorem ((C\d+)_\w+)", open(f).read(), re.M):
        thms.setdefault(m.group(2), []).append("Mp4.Props." + m.group(1))
claims = []
for p in props:
    i = p["id"]
    n = notes.get(i, {})
    t = thms.get(i, [])
    if not t and n.get("status") != "not_applicable":
        continue
    claims.append({"property": i, "status": n.get("status", "proved"), "theorems": t, "note": n.get("note", "")})
json.dump({"claims": claims}, open(f"{root}/MANIFEST.json", "w"), indent=1, ensure_ascii=False)
print(len(claims), "claims;", sum(len(c["theorems"]) for c in claims), "theorems")
