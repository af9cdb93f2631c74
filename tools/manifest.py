#!/usr/bin/env python3
"""Regenerate MANIFEST.json from the theorem names in lean/Verif/Props and tools/status.json."""
import glob
import json
import os
import re

root = os.path.join(os.path.dirname(os.path.abspath(__file__)), "..")
theorems = {}
for path in sorted(glob.glob(os.path.join(root, "lean/Verif/Props/*.lean"))):
    ns = []
    for line in open(path):
        m = re.match(r"namespace (\S+)", line)
        if m:
            ns.append(m.group(1))
        m = re.match(r"end (\S+)", line)
        if m and ns and ns[-1] == m.group(1):
            ns.pop()
        m = re.match(r"theorem ((C\d{2,3})_\w+)", line)
        if m:
            theorems.setdefault(m.group(2), []).append(".".join(ns + [m.group(1)]))
status = json.load(open(os.path.join(root, "tools/status.json")))
claims = []
for line in open(os.path.join(root, "properties.jsonl")):
    pid = json.loads(line)["id"]
    if pid in status:
        st, note = status[pid]
        claims.append({"property": pid, "status": st, "theorems": theorems.get(pid, []), "note": note})
        assert theorems.get(pid), pid
json.dump({"claims": claims}, open(os.path.join(root, "MANIFEST.json"), "w"), indent=1)
missing = [p for p in theorems if p not in status]
print(len(claims), "claims; theorems without status:", missing)
