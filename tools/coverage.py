#!/usr/bin/env python3
"""Regenerates COVERAGE.md: which definitions model which lines of /repo, and how much of
each source file is cited by the model.  Run from /verif."""
import glob, os, re
DEF = re.compile(r'^(?:@\[[^\]]*\]\s*)?(?:noncomputable )?(?:def|structure|inductive|abbrev|class) (\S+)', re.M)
CIT = re.compile(r'/repo/((?:src|tool)/[\w./-]+\.(?:cc|cpp|c|hh|hpp|h|tcc|F90|py))(?::([\d,\-– ]+))?')
cov, rows = {}, []
for p in sorted(glob.glob('lean/Verif/Model/*.lean')):
    s = open(p).read()
    mod = os.path.basename(p)[:-5]
    for m in CIT.finditer(s):
        f = m.group(1)
        cov.setdefault(f, set())
        for r in (m.group(2) or '').replace('–', '-').replace(' ', '').strip(',').split(','):
            if not r or r == '-': continue
            a, _, b = r.partition('-')
            b = b or a
            if a.isdigit() and b.isdigit(): cov[f].update(range(int(a), int(b) + 1))
    for m in DEF.finditer(s):
        pre = s[:m.start()].rstrip()
        doc = pre[pre.rfind('/-'):] if pre.endswith('-/') else ''
        c = [x.group(1).replace('src/mVMC/', '') + (':' + x.group(2).strip(' ,-') if x.group(2) else '') for x in CIT.finditer(doc)]
        rows.append((mod, m.group(1).rstrip(':'), c))
out = ['# What the model covers', '', 'Generated by `tools/coverage.py`.', '',
       '## Source files', '', 'Lines of a source file inside a range cited by some model definition.', '',
       '| file | lines | cited |', '|---|---|---|']
for f in sorted(cov):
    n = sum(1 for _ in open('/repo/' + f, errors='replace')) if os.path.exists('/repo/' + f) else 0
    out.append(f'| {f} | {n} | {len([x for x in cov[f] if x <= n or n == 0])} |')
out += ['', '## Source files without any model', '']
allf = [os.path.relpath(x, '/repo') for d in ('src/mVMC',) for x in glob.glob(f'/repo/{d}/**/*.c', recursive=True)]
out += [f'* {f}' for f in sorted(allf) if f not in cov]
out += ['', '## Definitions', '', 'Paths relative to `/repo/src/mVMC`.', '']
last = None
for mod, d, c in rows:
    if mod != last: out += ['', f'### Model/{mod}.lean', '']; last = mod
    out.append(f'* `{d}` — ' + (', '.join(c) if c else 'no citation'))
open('COVERAGE.md', 'w').write('\n'.join(out) + '\n')
print(sum(1 for r in rows if not r[2]), 'definitions without citation of', len(rows))
