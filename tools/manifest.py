#!/usr/bin/env python3
"""Writes ../MANIFEST.json from the theorem names C<nn>_* found in lean/Verif/Props."""
import json, pathlib, re
root = pathlib.Path(__file__).resolve().parent.parent
props = [json.loads(l) for l in (root / "properties.jsonl").read_text().splitlines()]
notes = json.loads((root / "tools/notes.json").read_text())
thms = {}
for f in sorted((root / "lean/Verif/Props").glob("*.lean")):
    for m in re.finditer(r"^theorem\s+(C\d\d+)_(\w+)", f.read_text(), re.M):
        thms.setdefault(m.group(1), []).append(f"TF.Props.{m.group(1)}_{m.group(2)}")
claims = []
for p in props:
    t = thms.get(p["id"], [])
    if not t:
        print("no theorem for", p["id"]); continue
    st = "partial" if any("_partial" in x or "_refuted" in x for x in t) else "proved"
    claims.append(dict(property=p["id"], status=st, theorems=t, note=notes.get(p["id"], p["title"])))
(root / "MANIFEST.json").write_text(json.dumps(dict(claims=claims), indent=1) + "\n")
print(len(claims), sum(c["status"] == "proved" for c in claims))
