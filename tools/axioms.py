#!/usr/bin/env python3
"""Writes AXIOMS.md: the axioms of each theorem in MANIFEST.json, as reported by Lean."""
import json, pathlib, re, subprocess, tempfile
root = pathlib.Path(__file__).resolve().parent.parent
claims = json.loads((root / "MANIFEST.json").read_text())["claims"]
names = [n for c in claims for n in c["theorems"]]
with tempfile.NamedTemporaryFile("w", suffix=".lean") as f:
    f.write("import Verif\n" + "".join("#print axioms %s\n" % n for n in names))
    f.flush()
    out = subprocess.run(["lake", "env", "lean", f.name], cwd=root / "lean", capture_output=True, text=True).stdout
found = {}
for m in re.finditer(r"'([^']+)' (?:depends on axioms: \[([^\]]*)\]|does not depend on any axioms)", out):
    found[m.group(1)] = sorted(a.strip() for a in (m.group(2) or "").split(",") if a.strip())
lines = ["# Axioms of each property theorem", "", "Written by `tools/axioms.py` from `#print axioms`.", "", "| property | theorem | axioms |", "|---|---|---|"]
for c in claims:
    for n in c["theorems"]:
        lines.append("| %s | `%s` | %s |" % (c["property"], n, ", ".join(found[n]) or "none"))
(root / "AXIOMS.md").write_text("\n".join(lines) + "\n")
print(sorted({a for v in found.values() for a in v}))
