#!/usr/bin/env python3
"""Assemble DESIGN.md from design_head.md, the doc comments of the theorems and design_tail.md."""
import glob, json, os, re
root = os.path.dirname(os.path.dirname(os.path.abspath(__file__)))
rd = lambda *p: open(os.path.join(root, *p)).read()
props = [json.loads(l) for l in rd("properties.jsonl").splitlines() if l.strip()]
plans = json.loads(rd("tools", "plans.json"))
claims = {c["property"]: c for c in json.loads(rd("MANIFEST.json"))["claims"]}
docs = {}
for f in sorted(glob.glob(os.path.join(root, "lean/Verif/Props/*.lean"))):
    s = open(f).read()
    for m in re.finditer(r"/--((?:(?!-/).)*?)-/\s*(?:@\[.*?\]\s*)?theorem (C\d+_\w+)", s, re.S):
        docs[m.group(2)] = (os.path.basename(f), " ".join(m.group(1).split()))
out = ["## 5. Properties: what is modelled, how it is proved\n",
       "The full statements are in `properties.jsonl`. All theorems are for all inputs of the model; an `example` beside each group shows that",
       "the hypotheses can be met.\n"]
for p in props:
    i = p["id"]; c = claims[i]
    out.append(f"### {i}. {p['title']} ({c['status']})\n")
    out.append("Modelled code: " + ", ".join(f"`{a}`" for a in p["anchors"]) + ".")
    out.append("Proof: " + plans[i] + "\n")
    for t in c["theorems"]:
        n = t.split(".")[-1]; f, d = docs.get(n, ("", ""))
        d = re.sub(r"^\**C\d+(/C\d+)?(, [^.*]*)?\.?\**:?\s*", lambda m: (m.group(2)[2:].capitalize() + ": ") if m.group(2) else "", d)
        out.append(f"* `{n}` (`Props/{f}`): {d}")
    if c["note"]: out.append("\nNote: " + c["note"])
    out.append("")
open(os.path.join(root, "DESIGN.md"), "w").write(rd("tools", "design_head.md") + "\n".join(out) + rd("tools", "design_tail.md"))
