#!/usr/bin/env python3
"""Mutation testing of the theorems, in a scratch copy outside /verif.

usage: mutate.py MUTANTS.json [ids...]      MUTANTS.json: [{"id","file","def","old","new","claim","breaks":["C01",..]}]

For each mutant: copy the project, apply the edit, build. Every declaration whose proof fails is stubbed, and the build goes on, so that failures
downstream are seen too. In the end a theorem counts as surviving if `#print axioms` shows no stub among what it depends on.
To save time only the Props modules next to the edited model file are built; theorems elsewhere count as failed if they depend on a declaration
that failed (/tmp/mut/deps, made by Deps.lean.txt on the unedited project). If nothing fails there, everything is built.
Results go to /tmp/mut/results.jsonl."""
import json, os, re, subprocess, sys
PRI, SCR, OUT = '/tmp/mut/pristine', '/tmp/mut/scratch', '/tmp/mut/results.jsonl'
STUB = 's' + 'orry'
KW = re.compile(r'^(?:@\[[^\]]*\]\s*)?(?:private |protected |noncomputable )*(theorem|lemma|def|instance|example|structure|inductive|abbrev|class|variable|namespace|section|end|open|omit|import|set_option|include)\b')
TOP = re.compile(r'^\S')

def block(lines, ln):
    i = ln
    while i >= 0 and not (KW.match(lines[i]) and KW.match(lines[i]).group(1) in
        ('theorem','lemma','def','instance','example','structure','inductive','abbrev','class')): i -= 1
    j = i + 1
    while j < len(lines) and not (KW.match(lines[j]) or lines[j].startswith(('/-', '@[', '#'))): j += 1
    while lines[j-1].strip() == '': j -= 1
    return i, j

def stub(path, lns):
    lines = open(path).read().split('\n'); names = []
    blocks = {}
    for ln in lns: blocks[block(lines, ln - 1)] = ln
    for (i, j), ln in sorted(blocks.items(), reverse=True):
        if i < 0: return None, 'no declaration at %s:%d' % (path, ln)
        kind = KW.match(lines[i]).group(1)
        text = '\n'.join(lines[i:j])
        name = text.split()[1:2] and re.sub(r'^(private|protected|noncomputable) ', '', re.sub(r'^@\[[^\]]*\]\s*', '', text)).split()[1]
        if kind not in ('theorem', 'lemma', 'example'):
            return None, 'error in %s %s' % (kind, name)
        d = 0; pos = None; k = 0
        while k < len(text):
            ch = text[k]
            if ch in '([{⟨': d += 1
            elif ch in ')]}⟩': d -= 1
            elif d == 0 and text.startswith(':=', k) and not re.search(r'\b(let|have) [^\n;]*$', text[:k]): pos = k; break
            k += 1
        if pos is None:
            m = re.search(r'\n  \| ', text)
            if not m: return None, 'cannot stub %s' % name
            pos = m.start()
        new = text[:pos].rstrip() + ' := by ' + STUB
        if new == text: return None, 'already stubbed %s' % name
        lines[i:j] = new.split('\n')
        names.append('example' if kind == 'example' else name)
    open(path, 'w').write('\n'.join(lines))
    return names, None

TARGETS = {'Py': ['SortedDeque'], 'Model/SortedDeque': ['SortedDeque'], 'Model/BufferReader': ['Reader'], 'Model/Channel': ['Reader'],
  'Model/RWLock': ['RWLock'], 'Model/Consumer': ['Consumer'], 'Model/StreamBuffer': ['SBWitness'], 'Model/StreamSource': ['StreamSource'],
  'Model/SourceReader': ['SourceReader'], 'Model/Simply': ['SimplyWitness'], 'Model/Misc': ['Misc'], 'Model/ReaderObjs': ['ReaderObjs'],
  'Model/SourceObj': ['EndToEndWitness'], 'Model/Counter': ['CounterWitness'], 'Model/Join': ['JoinWitness'], 'Model/Linear': ['LinearWitness'], 'Model/SourceThreads': ['SourceThreadsWitness'], 'Model/RWInterrupt': ['RWInterrupt'], 'Model/HttpSource': ['HttpWitness'],
  'Model/SimplySource': ['FileLinesWitness'], 'Model/Raising': ['RaisingOk'], 'Model/LineSource': ['LineWitness'], 'Model/NextReader': ['NextWitness'],
  'Model/Launch': ['LaunchWitness'], 'Model/Aged': ['AgedWitness'], 'Model/Iterate': ['IterateWitness'], 'Model/Fine': ['FineWitness', 'FineLiveWitness'], 'Model/Interrupt': ['InterruptWitness']}

def build(targets, failed):
    for it in range(40):
        r = subprocess.run(['lake', 'build'] + targets, cwd=SCR, capture_output=True, text=True)
        out = r.stdout + r.stderr
        if r.returncode == 0: return None
        errs = {}
        for f, ln in re.findall(r'^error: (Verif/[^:\s]+\.lean):(\d+):', out, re.M): errs.setdefault(f, set()).add(int(ln))
        if not errs: return out[-600:]
        for f, lns in errs.items():
            names, e = stub(os.path.join(SCR, f), lns)
            if e: return e
            failed += [f.split('/', 1)[1] + ':' + x for x in names]
    return 'too many rounds'

def dependents(failed):
    bad = set()
    keys = [('Verif.' + f[:-5].replace('/', '.'), n) for f, n in (x.split(':', 1) for x in failed) if n != 'example']
    for l in open('/tmp/mut/deps'):
        t, *ds = l.split()
        for d in ds:
            mod, c = d.split(':', 1)
            if any(mod == km and (c == n or c.endswith('.' + n)) for km, n in keys): bad.add(t); break
    return bad

def run(m):
    subprocess.run('rm -rf %s && cp -a %s %s' % (SCR, PRI, SCR), shell=True, check=True)
    p = os.path.join(SCR, 'Verif', m['file']); t = open(p).read()
    n = t.count(m['old'])
    if n != 1: return dict(id=m['id'], error='pattern occurs %d times' % n)
    open(p, 'w').write(t.replace(m['old'], m['new']))
    for f, o, n in m.get('extra', []): # the same edit in a relation that restates the machine
        q = os.path.join(SCR, 'Verif', f); t = open(q).read()
        if t.count(o) != 1: return dict(id=m['id'], error='extra pattern occurs %d times' % t.count(o))
        open(q, 'w').write(t.replace(o, n))
    failed = []
    tg = m.get('targets') or TARGETS.get(m['file'][:-5])
    err = build(['Verif.Props.' + x for x in tg] if tg else [], failed)
    bad = dependents(failed)
    if not err and not bad and tg:
        err = build([], failed); bad = dependents(failed)
    res = dict(id=m['id'], failed=failed, error=err, broken=sorted(bad))
    props = {}
    for c in json.load(open('/verif/MANIFEST.json'))['claims']:
        props[c['property']] = (len([x for x in c['theorems'] if x in bad]), len(c['theorems']))
    res['breaks'] = {k: '%d/%d' % v for k, v in props.items() if v[0]}
    return res

ms = json.load(open(sys.argv[1])); ids = sys.argv[2:]
done = set()
if os.path.exists(OUT): done = {json.loads(l)['id'] for l in open(OUT)}
for m in ms:
    if ids and m['id'] not in ids: continue
    if not ids and m['id'] in done: continue
    try: r = run(m)
    except Exception as e: r = dict(id=m['id'], error=repr(e))
    r['want'] = m.get('breaks')
    print(json.dumps(r)[:1500], flush=True)
    open(OUT, 'a').write(json.dumps(r) + '\n')
