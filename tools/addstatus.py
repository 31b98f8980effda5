#!/usr/bin/env python3
"""Adds entries to tools/status.json: addstatus.py ID STATUS NOTE [ID STATUS NOTE ...]"""
import json, pathlib, sys
p = pathlib.Path(__file__).resolve().parent / "status.json"
d = json.loads(p.read_text())
a = sys.argv[1:]
while a:
    d[a[0]] = {"status": a[1], "note": a[2]}
    a = a[3:]
p.write_text("{\n" + ",\n".join(" %s: %s" % (json.dumps(k), json.dumps(d[k], ensure_ascii=False)) for k in sorted(d)) + "\n}\n")
