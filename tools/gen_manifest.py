#!/usr/bin/env python3
"""Writes MANIFEST.json from the table below and checks that every named theorem exists in the sources."""
import json, re, glob, os
root = os.path.dirname(os.path.dirname(os.path.abspath(__file__)))
C = []
def c(prop, status, theorems, note=''):
    C.append(dict(property=prop, status=status, theorems=['S2P.'+t for t in theorems.split()], note=note))
exec(open(os.path.join(root, 'tools', 'claims.py')).read())
names = set()
for f in glob.glob(os.path.join(root, 'lean/Verif/**/*.lean'), recursive=True):
    names |= set(re.findall(r'^\s*(?:protected |private )?theorem\s+([^\s:({\[]+)', open(f).read(), re.M))
bad = [t for x in C for t in x['theorems'] if t.split('.')[-1] not in {n.split('.')[-1] for n in names}]
props = [json.loads(l)['id'] for l in open(os.path.join(root, 'properties.jsonl'))]
have = [x['property'] for x in C]
print('missing theorems:', bad); print('properties without claim:', [p for p in props if p not in have])
json.dump(dict(claims=C), open(os.path.join(root, 'MANIFEST.json'), 'w'), indent=1)
