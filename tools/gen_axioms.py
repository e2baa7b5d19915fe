#!/usr/bin/env python3
"""Rewrites the axioms table of DESIGN.md from `#print axioms` on every theorem of MANIFEST.json."""
import json, re, subprocess, collections
names = []
for c in json.load(open('/verif/MANIFEST.json'))['claims']:
    for t in c['theorems']:
        if t not in names: names.append(t)
src = 'import Verif\n' + ''.join('#print axioms %s\n' % n for n in names)
open('/tmp/ax.lean', 'w').write(src)
out = subprocess.run('lake env lean /tmp/ax.lean', shell=True, cwd='/verif/lean', capture_output=True, text=True).stdout
out = re.sub(r'\n\s+', ' ', out)
g = collections.OrderedDict()
for m in re.finditer(r"'([^']+)' (does not depend on any axioms|depends on axioms: \[([^\]]*)\])", out):
    ax = ', '.join(sorted((m.group(3) or '').replace(' ', '').split(','))) if m.group(3) else 'none'
    g.setdefault(ax, []).append(m.group(1).removeprefix('S2P.'))
n = sum(map(len, g.values())); assert n == len(names), (n, len(names))
t = ''
for ax, l in sorted(g.items(), key=lambda x: -len(x[1])):
    t += '* **%s** (%d theorems): %s\n' % (ax, len(l), ', '.join('`%s`' % x for x in l))
d = open('/verif/DESIGN.md').read()
a, b = '<!-- axioms begin -->\n', '<!-- axioms end -->'
d = d[:d.index(a) + len(a)] + t + d[d.index(b):]
open('/verif/DESIGN.md', 'w').write(d)
print({k: len(v) for k, v in g.items()})
