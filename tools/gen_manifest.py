"""Writes MANIFEST.json from tools/claims.txt (property | status | theorems | note)."""
import json, os
here = os.path.dirname(os.path.abspath(__file__))
claims = []
for line in open(os.path.join(here, "claims.txt")):
    line = line.strip()
    if not line or line.startswith("#"):
        continue
    prop, status, theorems, note = [part.strip() for part in line.split("|", 3)]
    assert status in ("proved", "partial", "not_applicable"), line
    claims.append({"property": prop, "status": status,
                   "theorems": [t.strip() for t in theorems.split(",") if t.strip()], "note": note})
with open(os.path.join(here, "..", "MANIFEST.json"), "w") as out:
    json.dump({"claims": claims}, out, indent=1)
    out.write("\n")
