#!/usr/bin/env python3
"""Systematic seeded bugs: small edits of every line of the model, one at a time, in a scratch copy outside /verif. A mutant is killed if the edited
model compiles and `lake build` then fails; it is a survivor if everything still builds.
usage: automut.py gen            -> /tmp/am/mutants.jsonl
       automut.py run DIR [n/m]  (every m-th mutant, in scratch copy DIR) -> /tmp/am/results.jsonl"""
import re, sys, os, json, random, subprocess
ROOT = '/verif/lean/Verif'
FILES = ['Py.lean'] + ['Model/' + f for f in sorted(os.listdir(ROOT + '/Model'))]

def code_lines(t):
    """line numbers of code: no comments, no declarations of types, no theorems"""
    out = []; depth = 0; kind = None
    for n, l in enumerate(t.split('\n')):
        c = l.count('/-') ; e = l.count('-/')
        if depth or c:
            depth += c - e
            if depth == 0 and not l.strip().endswith('-/'): pass
            else: continue
        m = re.match(r'(?:@\[[^\]]*\]\s*)?(?:private |protected |noncomputable )*(theorem|lemma|def|instance|example|structure|inductive|abbrev|class|variable|namespace|section|end|open|omit|import|set_option|deriving)\b', l)
        if m: kind = m.group(1)
        if kind in ('def', 'instance'): out.append(n)
    return out

def constructors():
    g = []
    for f in FILES:
        t = open(ROOT + '/' + f).read(); t = re.sub(r'/-.*?-/', '', t, flags=re.S)
        for m in re.finditer(r'^inductive (\w+).*?\n((?:  \|[^\n]*\n)+)', t, re.M):
            cs = []
            for l in m.group(2).split('\n'):
                for x in re.findall(r'\| (\w+)(?=\s*(?:\||$))', l): cs.append(x)
            if len(cs) > 1: g.append(cs)
    return g

# Step relations that restate a machine: the machine's `step` is tied to them by `step_to`, so every edit of `step` alone is caught there, which says little.
# Therefore the relation is edited instead, `step_to` being taken for granted in the scratch copy.
REL = {'Proofs/StreamBuffer.lean': 'StepTo', 'Proofs/StreamSource.lean': 'StepTo', 'Proofs/NextReader.lean': 'NStep', 'Proofs/IterBuffer.lean': 'GStep'}
SKIP = {'Model/StreamBuffer.lean': r'^def (step|startGo|thrGo|\w*Go)\b', 'Model/StreamSource.lean': r'^def (step|\w*Go)\b', 'Model/NextReader.lean': r'^def (step|go)\b', 'Model/IterBuffer.lean': r'^def (step|go)\b'}

# built first, as most kills are found there
NEAR = {'Py': ['SortedDeque', 'Reader'], 'Model/SortedDeque': ['SortedDeque', 'Reader'], 'Model/BufferReader': ['Reader'], 'Model/Channel': ['Reader'],
  'Model/RWLock': ['RWLock'], 'Model/Consumer': ['Consumer'], 'Model/StreamBuffer': ['SBWitness'], 'Model/StreamSource': ['StreamSource'],
  'Model/SourceReader': ['SourceReader'], 'Model/Simply': ['SimplyWitness'], 'Model/Misc': ['Misc'], 'Model/ReaderObjs': ['ReaderObjs'],
  'Model/SourceObj': ['EndToEndWitness'], 'Model/Counter': ['CounterWitness'], 'Model/Join': ['JoinWitness'], 'Model/Linear': ['LinearWitness'], 'Model/SourceThreads': ['SourceThreadsWitness'],
  'Model/RWInterrupt': ['RWInterrupt'], 'Model/HttpSource': ['HttpWitness'], 'Model/SimplySource': ['FileLinesWitness'], 'Model/Raising': ['RaisingOk'], 'Model/LineSource': ['LineWitness'],
  'Model/NextReader': ['NextWitness'], 'Proofs/StreamBuffer': ['SBWitness'], 'Proofs/StreamSource': ['StreamSource'], 'Proofs/NextReader': ['NextWitness'],
  'Model/AutoDrop': ['AutoDropWitness'], 'Model/Forget': ['Forget'], 'Model/IterBuffer': ['IterWitness'], 'Model/ObjSource': ['ObjSourceWitness'], 'Proofs/IterBuffer': ['IterWitness']}

def first_error(d, targets):
    """(return code, first error) of a build that is stopped at the first error"""
    import signal
    pr = subprocess.Popen(['lake', 'build'] + targets, cwd=d, stdout=subprocess.PIPE, stderr=subprocess.STDOUT, text=True, start_new_session=True)
    for o in pr.stdout:
        e = re.match(r'error: (Verif/\S+?\.lean):(\d+):', o)
        if e:
            try: os.killpg(pr.pid, signal.SIGKILL)
            except Exception: pass
            pr.wait(); return 1, [e.group(1) + ':' + e.group(2)]
    return pr.wait(), []

def rel_range(ls, name):
    a = next(i for i, l in enumerate(ls) if l.startswith('inductive ' + name))
    b = next(i for i in range(a + 1, len(ls)) if ls[i].startswith(('theorem', '/--', 'def', 'omit', 'section', 'end')))
    return a + 1, b

SUB = [(r' < ', ' ≤ '), (r' ≤ ', ' < '), (r' \+ 1\b', ''), (r' \+ 1\b', ' + 2'), (r' - 1\b', ''), (r'\btrue\b', 'false'), (r'\bfalse\b', 'true'),
  (r'&&', '||'), (r'\|\|', '&&'), (r' ∧ ', ' ∨ '), (r' ∨ ', ' ∧ '), (r' = ', ' ≠ '), (r' ≠ ', ' = '), (r' == ', ' != '), (r'!(?=[a-z(])', ''), (r'¬ ', ''),
  (r' \+\+ \[[^\[\]]*\]', ''), (r'\.take\b', '.drop'), (r'\.drop\b', '.take'), (r'\.head\?', '.getLast?'), (r'\.getLast\?', '.head?'), (r'\.tail\b', '.dropLast'),
  (r'\b0\b', '1'), (r'\b1\b', '0'), (r'bisectLeft', 'bisectRight'), (r'bisectRight', 'bisectLeft'), (r'\.none\b', '.one default'),
  (r'\bsome \w+(?= *(?:$|[,)}]))', 'none')]
ERR = ['valueError', 'typeError', 'attributeError', 'indexError', 'runtimeError', 'streamNotStarted', 'stopIteration']

def gen():
    cons = constructors(); ms = []
    for f in FILES + list(REL):
        ls = open(ROOT + '/' + f).read().split('\n')
        cl = code_lines('\n'.join(ls)) if f not in REL else range(*rel_range(ls, REL[f]))
        cur = ''
        for n in cl:
            l = ls[n]
            if re.match(r'(?:@\[.*?\]\s*)?(?:private |protected )*(def|instance)', l): cur = l
            if f in SKIP and re.match(SKIP[f], cur): continue
            cut = l.find(' -- '); body, tail = (l, '') if cut < 0 else (l[:cut], l[cut:])
            # match alternatives: only the right-hand side; first lines of definitions: only after :=
            s0 = 0
            if re.match(r'\s*\|', body) and '=>' in body: s0 = body.rfind('=>')
            elif ':=' in body and re.match(r'(?:@\[.*?\]\s*)?(?:private |protected )*(def|instance)', body): s0 = body.find(':=')
            elif re.match(r'(?:@\[.*?\]\s*)?(?:private |protected )*(def|instance)', body): continue
            seen = set()
            def put(new, op):
                if new != body and new not in seen: seen.add(new); ms.append(dict(file=f, line=n + 1, old=l, new=new + tail, op=op))
            for pat, rep in SUB:
                for m in re.finditer(pat, body):
                    if m.start() >= s0: put(body[:m.start()] + rep + body[m.end():], pat)
            for g in cons:
                for x in g:
                    for m in re.finditer(r'(?<![\w)])\.%s\b' % x, body):
                        if m.start() >= s0:
                            for y in random.Random(n).sample(g, min(3, len(g))):
                                if y != x: put(body[:m.start()] + '.' + y + body[m.end():], x + '->' + y)
            for x in ERR:
                for m in re.finditer(r'\.error \.%s\b' % x, body):
                    if m.start() >= s0: put(body[:m.start()] + '.error .' + ('typeError' if x == 'valueError' else 'valueError') + body[m.end():], 'err')
            for m in re.finditer(r'\{ (\w+) with ([^{}]*) \}', body):
                if m.start() < s0: continue
                fs = re.split(r', (?=\w+ :=)', m.group(2))
                for k in range(len(fs)):
                    rest = fs[:k] + fs[k+1:]
                    put(body[:m.start()] + ('{ %s with %s }' % (m.group(1), ', '.join(rest)) if rest else m.group(1)) + body[m.end():], 'drop field')
            for m in re.finditer(r'\.say ', body):
                if m.start() >= s0: put(body[:m.start()] + '.nosay ' + body[m.end():], 'drop event')
    ms = [m for m in ms if '.nosay' not in m['new']]
    old = {(m['file'], m['old'], m['new']) for g in ('results', 'results_old') if os.path.exists('/tmp/am/%s.jsonl' % g) for m in map(json.loads, open('/tmp/am/%s.jsonl' % g)) if m['res'] != 'survived'}
    ms = [m for m in ms if (m['file'], m['old'], m['new']) not in old]
    by = {}
    for m in ms: by.setdefault(m['file'], []).append(m)
    ms = []
    for f in by: random.Random(7).shuffle(by[f]); ms += by[f][:int(os.environ.get('CAP', 60))]
    random.Random(11).shuffle(ms)
    for i, m in enumerate(ms): m['id'] = 'a%04d' % i
    with open('/tmp/am/mutants.jsonl', 'w') as o:
        for m in ms: o.write(json.dumps(m) + '\n')
    import collections
    print(len(ms), collections.Counter(m['file'] for m in ms))

def run(d, part):
    k, mm = part
    done = {json.loads(l)['id'] for l in open('/tmp/am/results.jsonl')} if os.path.exists('/tmp/am/results.jsonl') else set()
    if not os.path.exists(d): subprocess.run(['cp', '-a', '/tmp/mut/pristine', d], check=True)
    for i, l in enumerate(open('/tmp/am/mutants.jsonl')):
        m = json.loads(l)
        if i % mm != k or m['id'] in done: continue
        # the scratch copy is brought back to the pristine one, compiled files included
        subprocess.run(['rsync', '-a', '--delete', '/tmp/mut/pristine/', d + '/'], check=True) if os.path.exists('/usr/bin/rsync') else \
            subprocess.run('rm -rf %s && cp -a /tmp/mut/pristine %s' % (d, d), shell=True, check=True)
        p = d + '/Verif/' + m['file']; ls = open(p).read().split('\n')
        if ls[m['line'] - 1] != m['old']: continue
        ls[m['line'] - 1] = m['new']
        rel = None
        if m['file'] in REL:
            rel = rel_range(ls, REL[m['file']])
            a = next(i for i, l in enumerate(ls) if l.startswith('theorem step_to'))
            b = next(i for i in range(a + 1, len(ls)) if re.match(r'\S', ls[i]))
            text = '\n'.join(ls[a:b]); text = text[:text.rindex(':= by', 0, text.index('cases a'))]
            ls[a:b] = (text + ':= by s' + 'orry\n').split('\n')
        open(p, 'w').write('\n'.join(ls))
        mod = 'Verif.' + m['file'][:-5].replace('/', '.')
        r = subprocess.run(['lake', 'build', mod], cwd=d, capture_output=True, text=True)
        out = [int(x) - 1 for x in re.findall(r'error: Verif/%s:(\d+):' % re.escape(m['file']), r.stdout + r.stderr)]
        if r.returncode and rel and out and not any(rel[0] <= x < rel[1] for x in out): res = 'killed'; fails = ['%s:%d' % (m['file'], out[0] + 1)]
        elif r.returncode: res = 'invalid'; fails = []
        else:
            rc, fails = first_error(d, ['Verif.Props.' + x for x in NEAR[m['file'][:-5]]])
            if rc == 0: rc, fails = first_error(d, [])
            res = 'killed' if fails else ('survived' if rc == 0 else 'other')
        m['res'] = res; m['fails'] = fails[:3]
        open('/tmp/am/results.jsonl', 'a').write(json.dumps(m) + '\n')

if sys.argv[1] == 'gen': gen()
else:
    a = (sys.argv[3] if len(sys.argv) > 3 else '0/1').split('/')
    run(sys.argv[2], (int(a[0]), int(a[1])))
