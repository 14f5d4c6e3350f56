#!/usr/bin/env python3
"""Rewrites the per-property table of ../DESIGN.md (between the markers) from properties.jsonl and MANIFEST.json."""
import json, pathlib, re
root = pathlib.Path(__file__).resolve().parent.parent
props = {}
for l in (root / "properties.jsonl").read_text().splitlines():
    d = json.loads(l); props[d["id"]] = d
rows = ["| id | property | status | theorems (namespace `TF.Props`) | file |", "|---|---|---|---|---|"]
where = {}
for f in sorted((root / "lean/Verif/Props").glob("*.lean")):
    for m in re.finditer(r"^theorem\s+(C\d\d+_\w+)", f.read_text(), re.M):
        where[m.group(1)] = f.stem
for c in json.loads((root / "MANIFEST.json").read_text())["claims"]:
    t = [x.split(".")[-1] for x in c["theorems"]]
    rows.append("| %s | %s | %s | %s | %s |" % (c["property"], props[c["property"]]["title"], c["status"],
        ", ".join("`%s`" % x for x in t), ", ".join(sorted({where[x] for x in t}))))
p = root / "DESIGN.md"
s = p.read_text()
a, b = "<!-- table -->", "<!-- /table -->"
i, j = s.index(a) + len(a), s.index(b)
p.write_text(s[:i] + "\n" + "\n".join(rows) + "\n" + s[j:])
