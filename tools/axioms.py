#!/usr/bin/env python3
"""Prints the axioms of every theorem in MANIFEST.json and writes AXIOMS.md.
Run from /verif after `lake build` in lean/."""
import json, os, re, subprocess, tempfile
claims = json.load(open('MANIFEST.json'))['claims']
names = sorted({t for c in claims for t in c['theorems']})
with tempfile.NamedTemporaryFile('w', suffix='.lean', delete=False) as f:
    f.write('import Verif\n' + ''.join(f'#print axioms {n}\n' for n in names))
out = subprocess.run(['lake', 'env', 'lean', f.name], cwd='lean', capture_output=True, text=True).stdout
os.unlink(f.name)
out = re.sub(r'\n\s+', ' ', out)
ax = {}
for l in out.splitlines():
    m = re.search(r"'([^']+(?:'[^' ]*)*)' depends on axioms: \[(.*)\]", l)
    if m: ax[m.group(1)] = tuple(x.strip() for x in m.group(2).split(','))
    m = re.search(r"'([^']+)' does not depend on any axioms", l)
    if m: ax[m.group(1)] = ()
missing = [n for n in names if n not in ax]
groups = {}
for n in names: groups.setdefault(ax.get(n), []).append(n)
res = ['# Axioms', '', 'Generated by `tools/axioms.py` from `#print axioms` of every theorem in MANIFEST.json.', '']
for k in sorted(groups, key=lambda k: -len(groups[k])):
    res += [f'## {", ".join(k) if k else "none"} ({len(groups[k])} theorems)', '', ', '.join(f'`{n}`' for n in groups[k]), '']
open('AXIOMS.md', 'w').write('\n'.join(res))
bad = {a for v in ax.values() for a in v} - {'propext', 'Classical.choice', 'Quot.sound'}
print(len(names), 'theorems;', 'missing', missing[:5], 'unexpected axioms', bad)
