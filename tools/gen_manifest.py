#!/usr/bin/env python3
"""Regenerate MANIFEST.json: theorem names are collected from lean/Verif/Props by the Cnn prefix."""
import glob, json, os, re
root = os.path.dirname(os.path.dirname(os.path.abspath(__file__)))
props = [json.loads(l) for l in open(os.path.join(root, "properties.jsonl"))]
notes = json.load(open(os.path.join(root, "tools", "notes.json")))
thms = {}
for f in sorted(glob.glob(os.path.join(root, "lean/Verif/Props/**/*.lean"), recursive=True)):
    ns = []
    for line in open(f):
        m = re.match(r"namespace (\S+)", line)
        if m: ns.append(m.group(1))
        m = re.match(r"end (\S+)", line)
        if m and ns and ns[-1] == m.group(1): ns.pop()
        m = re.match(r"(?:private |protected )?theorem ((C\d+)_\S+)", line)
        if m: thms.setdefault(m.group(2), []).append(".".join(ns + [m.group(1)]))
claims = []
for p in props:
    i = p["id"]; t = thms.get(i, []); n = notes.get(i, {})
    st = n.get("status") or ("proved" if t else "not_applicable")
    if not t and st != "not_applicable": raise SystemExit(f"{i}: no theorems")
    c = {"property": i, "status": st, "theorems": t, "note": n.get("note", "" if t else "Not modelled yet.")}
    claims.append(c)
json.dump({"claims": claims}, open(os.path.join(root, "MANIFEST.json"), "w"), indent=1, ensure_ascii=False)
print({s: sum(c["status"] == s for c in claims) for s in ("proved", "partial", "not_applicable")})
