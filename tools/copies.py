#!/usr/bin/env python3
"""Finds functions of the source that are textual copies of one another up to the number type.

The models are generic in the number type where the arithmetic is field arithmetic (`Model/PfUpdate.lean`), so a
theorem about one copy holds for the other.  Run from the repository root; writes COPIES.md."""
import glob
import os
import re

SRC = '/repo/src/mVMC/'

# what is identified: the complex and the real type, the suffixes of names, and the typed library names
SUBST = [
    (r'double\s+complex|complex\s+double', 'double'),
    (r'_real|_fcmp', ''),
    (r'WorkSpaceThreadComplex', 'WorkSpaceThreadDouble'),
    (r'WorkSpaceComplex', 'WorkSpaceDouble'),
    (r'\bcabs\(', 'fabs('),
    (r'\bM_Z', 'M_D'),
    (r'MPI_DOUBLE_COMPLEX', 'MPI_DOUBLE'),
    (r'0\.0\s*\+\s*0\.0\s*\*\s*I', '0.0'),
    (r'\s+', ''),
]


def strip(t):
    t = re.sub(r'/\*.*?\*/', lambda m: '\n' * m.group(0).count('\n'), t, flags=re.S)
    return re.sub(r'//[^\n]*', '', t)


def norm(t):
    for a, b in SUBST:
        t = re.sub(a, b, t)
    return t


def functions():
    for f in sorted(glob.glob(SRC + '*.c')):
        t = strip(open(f, errors='replace').read())
        for m in re.finditer(r'^(?:[a-z][\w \*]*?)\b(\w+)\s*\(([^;{}]*?)\)\s*\{', t, flags=re.M):
            if m.group(1) in ('if', 'for', 'while', 'switch'):
                continue
            d, k = 0, m.end() - 1
            while k < len(t):
                d += {'{': 1, '}': -1}.get(t[k], 0)
                if d == 0:
                    break
                k += 1
            yield (os.path.basename(f), m.group(1), t[:m.start()].count('\n') + 1, t[:k].count('\n') + 1,
                   norm(t[m.start():k + 1]))


def main():
    by = {}
    for f, n, a, b, body in functions():
        by.setdefault(body, []).append((f, n, a, b))
    out = ['# Functions that are copies up to the number type', '',
           'Generated by `tools/copies.py` from the source text: after removing comments and blanks and identifying the complex with',
           'the real type (the substitutions are listed in the script) the functions of a row are equal character by character.', '',
           '| functions | lines |', '|---|---|']
    for v in sorted(by.values()):
        if len(v) > 1:
            out.append('| ' + ', '.join(f'`{n}`' for _, n, _, _ in v) + ' | ' +
                       ', '.join(f'{f}:{a}-{b}' for f, _, a, b in v) + ' |')
    open('COPIES.md', 'w').write('\n'.join(out) + '\n')
    print(len(out) - 7, 'groups')


main()
