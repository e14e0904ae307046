#!/usr/bin/env python3
"""Writes /verif/AXIOMS.txt: the axioms each theorem of MANIFEST.json depends on (needs a finished lake build)."""
import json, os, subprocess, tempfile
here = os.path.dirname(os.path.abspath(__file__))
root = os.path.join(here, "..")
claims = json.load(open(os.path.join(root, "MANIFEST.json")))["claims"]
names = []
for c in claims:
    for t in c["theorems"]:
        if t not in names:
            names.append(t)
with tempfile.NamedTemporaryFile("w", suffix=".lean", delete=False) as f:
    f.write("import Verif\n" + "".join(f"#print axioms {n}\n" for n in names))
out = subprocess.run(["lake", "env", "lean", f.name], cwd=os.path.join(root, "lean"),
                     capture_output=True, text=True).stdout
os.unlink(f.name)
lines = [l for l in out.replace(",\n ", ", ").splitlines() if l.strip()]
assert len(lines) == len(names), out
open(os.path.join(root, "AXIOMS.txt"), "w").write("\n".join(lines) + "\n")
