"""Collect the theorems named Cxx_* from lean/Verif/Props and write MANIFEST.json."""
import glob
import json
import os
import re

root = os.path.join(os.path.dirname(os.path.abspath(__file__)), "..")
ids = [json.loads(l)["id"] for l in open(os.path.join(root, "properties.jsonl"))]
notes = json.load(open(os.path.join(root, "tools", "notes.json")))
found = {}
for path in sorted(glob.glob(os.path.join(root, "lean/Verif/Props/*.lean"))):
    for m in re.finditer(r"^theorem ((C\d+)\w*)", open(path).read(), re.M):
        found.setdefault(m.group(2), []).append("Dex." + m.group(1))
claims = []
for i in ids:
    ths = found.get(i, [])
    note = notes.get(i, "")
    full = [t for t in ths if not t.endswith("_partial")]
    if not ths:
        status, note = "partial", note or "Not proved yet; no theorem."
    elif i in notes.get("partial", []) or not full:
        status = "partial"
    else:
        status = "proved"
    claims.append({"property": i, "status": status, "theorems": ths, "note": note})
json.dump({"claims": claims}, open(os.path.join(root, "MANIFEST.json"), "w"), indent=1)
print({s: sum(c["status"] == s for c in claims) for s in ("proved", "partial")})
