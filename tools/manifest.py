#!/usr/bin/env python3
"""Regenerates MANIFEST.json: collects the theorems named C<nn>_... from the Lean sources.

Status: "partial" if a `_partial` or `_violated` theorem exists for the property (unless overridden below), "proved" otherwise.
"""
import json, re, pathlib
root = pathlib.Path(__file__).resolve().parent.parent
notes = {}
status = {}
exec((root / "tools" / "manifest_notes.py").read_text())
props = [json.loads(l)["id"] for l in (root / "properties.jsonl").read_text().splitlines() if l.strip()]
thms = {}
for f in sorted((root / "lean" / "Verif").rglob("*.lean")):
    ns = []
    for line in f.read_text().splitlines():
        m = re.match(r"namespace (\S+)", line)
        if m: ns.append(m.group(1))
        m = re.match(r"end (\S+)", line)
        if m and ns and ns[-1] == m.group(1): ns.pop()
        m = re.match(r"(?:private )?theorem ((C\d\d+)_\S+)", line)
        if m: thms.setdefault(m.group(2), []).append(".".join(ns + [m.group(1)]))
claims = []
for p in props:
    t = thms.get(p, [])
    if not t and p not in status: continue
    st = status.get(p) or ("partial" if any("_partial" in x or "_violated" in x for x in t) else "proved")
    claims.append({"property": p, "status": st, "theorems": t, "note": notes.get(p, "")})
(root / "MANIFEST.json").write_text(json.dumps({"claims": claims}, indent=1) + "\n")
for p in thms:
    if p not in props: print("theorem for unknown property", p)
print(len(claims), "claims,", sum(len(c["theorems"]) for c in claims), "theorems,",
      [p for p in props if p not in thms and p not in status], "missing")
