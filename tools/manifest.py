#!/usr/bin/env python3
"""Regenerates MANIFEST.json: collects every theorem `Cnn_...` below lean/Verif/Props and adds the
status and note kept in notes.json next to this script."""
import json, re, glob, os
root = os.path.dirname(os.path.dirname(os.path.abspath(__file__)))
notes = json.load(open(os.path.join(root, 'tools', 'notes.json')))
thms = {}
for f in sorted(glob.glob(os.path.join(root, 'lean/Verif/Props/*.lean'))):
    src = open(f).read()
    for m in re.finditer(r'^theorem (C\d\d)_(\w+)', src, re.M):
        thms.setdefault(m.group(1), []).append('MVMC.%s_%s' % (m.group(1), m.group(2)))
    # theorems serving a second property are listed in notes under "also"
ids = [json.loads(l)['id'] for l in open(os.path.join(root, 'properties.jsonl'))]
claims = []
for i in ids:
    n = notes.get(i)
    if n is None: continue
    t = thms.get(i, []) + ['MVMC.' + x for x in n.get('also', [])]
    assert t, i
    claims.append(dict(property=i, status=n['status'], theorems=t, note=n.get('note', '')))
for i in thms: assert i in notes, 'no status for ' + i
with open(os.path.join(root, 'MANIFEST.json'), 'w') as o:
    o.write('{"claims": [\n' + ',\n'.join(' ' + json.dumps(c, ensure_ascii=False) for c in claims) + '\n]}\n')
print(len(claims), 'claims of', len(ids))
