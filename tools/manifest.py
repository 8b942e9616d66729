#!/usr/bin/env python3
"""Regenerate MANIFEST.json: every theorem `Cxx_*` in lean/Verif/Props is listed under its property.
Notes and exceptions are kept in tools/notes.json."""
import json, re, glob, os
root = os.path.dirname(os.path.dirname(os.path.abspath(__file__)))
notes = json.load(open(root + "/tools/notes.json"))
thms = {}
for f in sorted(glob.glob(root + "/lean/Verif/Props/*.lean")):
    ns = []
    for line in open(f):
        m = re.match(r"namespace (\S+)", line)
        if m:
            ns.append(m.group(1))
        m = re.match(r"end (\S+)", line)
        if m and ns and ns[-1] == m.group(1):
            ns.pop()
        m = re.match(r"theorem (C(\d\d+)(?:_\S+)?)(?:\s|$)", line)
        if m:
            thms.setdefault("C" + m.group(2), []).append(".".join(ns + [m.group(1)]))
claims = []
for line in open(root + "/properties.jsonl"):
    pid = json.loads(line)["id"]
    note = notes.get(pid, {})
    if pid not in thms:
        continue
    status = note.get("status", "partial" if any(t.endswith("_partial") for t in thms[pid]) else "proved")
    claims.append({"property": pid, "status": status, "theorems": thms[pid], "note": note.get("note", "")})
json.dump({"claims": claims}, open(root + "/MANIFEST.json", "w"), indent=1, ensure_ascii=False)
print(len(claims), "claims,", sum(len(c["theorems"]) for c in claims), "theorems")
