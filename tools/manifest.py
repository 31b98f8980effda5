#!/usr/bin/env python3
"""Writes MANIFEST.json from the theorem names in lean/Verif/Props and the statuses in tools/status.json."""
import json, pathlib, re
root = pathlib.Path(__file__).resolve().parent.parent
names = {}
for f in sorted((root / "lean/Verif/Props").glob("*.lean")):
    for m in re.finditer(r"^theorem (C\d\d\d?(?!\d)\w*)", f.read_text(), re.M):
        names.setdefault(re.match(r"C\d+", m.group(1)).group(0), []).append("Gledger." + m.group(1))
status = json.loads((root / "tools/status.json").read_text())
claims = []
for line in (root / "properties.jsonl").read_text().splitlines():
    p = json.loads(line)["id"]
    s = status.get(p)
    if p in names and s is None:
        raise SystemExit(f"{p} has theorems but no status")
    if p not in names:
        claims.append({"property": p, "status": "partial", "theorems": [], "note": "No theorem yet."})
        continue
    claims.append({"property": p, "status": s["status"], "theorems": names[p], "note": s["note"]})
(root / "MANIFEST.json").write_text(json.dumps({"claims": claims}, indent=1, ensure_ascii=False) + "\n")
print(sum(c["status"] == "proved" for c in claims), "proved,", sum(c["status"] == "partial" for c in claims), "partial")
