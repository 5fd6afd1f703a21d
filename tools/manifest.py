#!/usr/bin/env python3
"""Writes MANIFEST.json from tools/claims.json (status and note per property) and the theorem names
`Cnn_*` found in lean/Verif/Props."""
import json, re, glob, os
root = os.path.dirname(os.path.dirname(os.path.abspath(__file__)))
names = {}
for f in sorted(glob.glob(root + '/lean/Verif/Props/*.lean')):
    ns = []
    for line in open(f):
        m = re.match(r'namespace (\S+)', line)
        if m: ns.append(m.group(1))
        m = re.match(r'end (\S+)', line)
        if m and ns: ns.pop()
        m = re.match(r'(?:protected |private )?theorem (C\d\d\w*)', line)
        if m: names.setdefault(m.group(1)[:3], []).append('.'.join(ns + [m.group(1)]))
claims = json.load(open(root + '/tools/claims.json'))
out = []
for l in open(root + '/properties.jsonl'):
    p = json.loads(l)['id']
    if p in claims:
        st, note = claims[p]
        th = names.get(p, [])
        assert th or st == 'not_applicable', p
        out.append({"property": p, "status": st, "theorems": th, "note": note})
    elif p in names:
        print('no claim for', p)
json.dump({"claims": out}, open(root + '/MANIFEST.json', 'w'), indent=1)
print(len(out), 'claims')
