#!/usr/bin/env python3
"""Write AXIOMS.txt: the axioms each manifest theorem depends on (needs a finished `lake build`)."""
import json, os, re, subprocess, tempfile
root = os.path.dirname(os.path.dirname(os.path.abspath(__file__)))
names = [t for c in json.load(open(os.path.join(root, "MANIFEST.json")))["claims"] for t in c["theorems"]]
with tempfile.TemporaryDirectory() as d:
    f = os.path.join(d, "Ax.lean")
    open(f, "w").write("import Verif\n" + "".join(f"#print axioms {n}\n" for n in names))
    o = subprocess.run(["lake", "env", "lean", f], cwd=os.path.join(root, "lean"), capture_output=True, text=True).stdout
o = re.sub(r"\n\s+", " ", o)
got = dict(re.findall(r"'(\S+)' (?:depends on axioms: \[(.*?)\]|does not depend on any axioms)", o))
open(os.path.join(root, "AXIOMS.txt"), "w").write("".join(f"{n}: {got[n] or 'none'}\n" for n in names))
print(sorted({a for v in got.values() for a in v.split(", ")}))
