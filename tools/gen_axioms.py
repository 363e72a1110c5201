#!/usr/bin/env python3
"""Write AXIOMS.md: the axioms every theorem of MANIFEST.json depends on, as told by `#print axioms`."""
import json, re, subprocess, tempfile
claims = json.load(open("/verif/MANIFEST.json"))["claims"]
names = [t for c in claims for t in c["theorems"]]
src = "import Verif\n" + "".join("#print axioms %s\n" % n for n in names)
open("/tmp/axioms.lean", "w").write(src)
out = subprocess.run(["lake", "env", "lean", "/tmp/axioms.lean"], cwd="/verif/lean", stdout=subprocess.PIPE, stderr=subprocess.STDOUT, text=True).stdout
ax = {}
for m in re.finditer(r"'([^']*(?:'[^ ]*)?)' (?:depends on axioms: \[([^\]]*)\]|does not depend on any axioms)", out):
    ax[m.group(1)] = re.sub(r"\s+", " ", m.group(2) or "none")
missing = [n for n in names if n not in ax]
assert not missing, missing
with open("/verif/AXIOMS.md", "w") as f:
    f.write("# Axioms of the property theorems\n\nWritten by tools/gen_axioms.py from `#print axioms`.\n\n| property | theorem | axioms |\n|---|---|---|\n")
    for c in claims:
        for t in c["theorems"]:
            f.write("| %s | %s | %s |\n" % (c["property"], t, ax[t]))
print(len(names), {a for a in ax.values()})
