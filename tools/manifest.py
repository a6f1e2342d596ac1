#!/usr/bin/env python3
"""Regenerates MANIFEST.json: collects the theorems named Cnn_* in lean/Verif/Props and the notes below."""
import json, re, glob, os
root = os.path.dirname(os.path.dirname(os.path.abspath(__file__)))
notes = json.load(open(os.path.join(root, 'tools', 'notes.json')))
thms = {}
for f in sorted(glob.glob(os.path.join(root, 'lean/Verif/Props/*.lean'))):
    s = open(f).read()
    for m in re.finditer(r'^theorem (C(\d\d+)_\w+)', s, re.M):
        thms.setdefault('C' + m.group(2), []).append('MultiArray.Props.' + m.group(1))
claims = []
for line in open(os.path.join(root, 'properties.jsonl')):
    p = json.loads(line)['id']
    if p not in thms:
        continue
    n = notes.get(p, {})
    claims.append({"property": p, "status": n.get("status", "proved"), "theorems": thms[p], "note": n.get("note", "")})
json.dump({"claims": claims}, open(os.path.join(root, 'MANIFEST.json'), 'w'), indent=1)
print(len(claims), 'claims', sum(len(c['theorems']) for c in claims), 'theorems')
