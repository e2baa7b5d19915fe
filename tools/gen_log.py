#!/usr/bin/env python3
"""seeded/LOG.jsonl from seeded/mutants.py and /tmp/mut/results.jsonl. Keeps the lines already there; one line per attempt.
`tightened` and remarks are kept by hand in seeded/remarks.json: {id: {"tightened": [...], "remark": "..."}}."""
import json, os, runpy
M = {m['id']: m for m in json.load(open('/tmp/mut/mutants.json'))}
R = '/verif/seeded/remarks.json'
rem = json.load(open(R)) if os.path.exists(R) else {}
L = '/verif/seeded/LOG.jsonl'
out = {}
for l in open(L):
    d = json.loads(l); out[d['id']] = d
for l in open('/tmp/mut/results.jsonl'):
    d = json.loads(l)
    if d['id'] not in M or 'failed' not in d: continue
    m = M[d['id']]; r = rem.get(d['id'], {})
    out[d['id']] = dict(id=d['id'], definition=m['def'], file=m['file'], edit={'from': m['old'], 'to': m['new']}, claim_broken=m['claim'],
        properties_expected=d['want'], declarations_failed=d['failed'], theorems_failed=d['broken'],
        expected_property_failed=all(x in d['breaks'] for x in d['want']), theorems_tightened=r.get('tightened', []))
    if 'remark' in r: out[d['id']]['remark'] = r['remark']
with open(L, 'w') as f:
    for k in out: f.write(json.dumps(out[k], ensure_ascii=False) + '\n')
print(len(out))
