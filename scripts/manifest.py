#!/usr/bin/env python3
"""Regenerate MANIFEST.json from the theorem names of lean/Verif/Props and from scripts/notes.json."""
import json, re, pathlib
root = pathlib.Path(__file__).resolve().parent.parent
notes = json.loads((root / "scripts/notes.json").read_text())
props = [json.loads(l) for l in (root / "properties.jsonl").read_text().splitlines() if l.strip()]
thms = {}
for f in sorted((root / "lean/Verif/Props").rglob("*.lean")):
    ns = []
    for line in f.read_text().splitlines():
        m = re.match(r"namespace (\S+)", line)
        if m: ns.append(m.group(1))
        m = re.match(r"end (\S+)", line)
        if m and ns and ns[-1] == m.group(1): ns.pop()
        m = re.match(r"(?:protected )?theorem ((C\d+)_\S+)", line)
        if m: thms.setdefault(m.group(2), []).append(".".join(ns + [m.group(1)]))
claims = []
for p in props:
    i = p["id"]
    t = thms.get(i, [])
    if not t and i not in notes:
        continue
    n = notes.get(i, {})
    bad = any(x.endswith("_partial") or x.endswith("_violated") for x in t)
    status = n.get("status") or ("partial" if bad else "proved")
    claims.append({"property": i, "status": status, "theorems": t, "note": n.get("note", "")})
(root / "MANIFEST.json").write_text(json.dumps({"claims": claims}, indent=1) + "\n")
print(len(claims), "claims;", [p["id"] for p in props if p["id"] not in {c["property"] for c in claims}])
