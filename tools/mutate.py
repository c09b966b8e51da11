#!/usr/bin/env python3
"""Seeded-bug runs: mutate.py --prep, then mutate.py MUTANTS.json [id ...]
Each mutant is {"id", "file", "definition", "old", "new", "edit", "claim", "expect": ["C05", ...]}.
The project is copied to a scratch directory, the edit applied, and the project rebuilt; every theorem
that no longer checks is replaced by `sorry` and the build repeated until it goes through, so that all
failing theorems are found.  A property theorem counts as failed if it fails itself or rests on a failed
lemma.  One line per mutant is appended to /verif/seeded/LOG.jsonl."""
import json, os, re, subprocess, sys, time
ROOT = '/verif/lean'
WORK = os.environ.get('MUT_WORK', '/tmp/mut/lean')
BASE = os.environ.get('MUT_BASE', '/tmp/mut/base')
LOG = '/verif/seeded/LOG.jsonl'

def sh(cmd, **kw):
    return subprocess.run(cmd, shell=True, capture_output=True, text=True, **kw)

DECL = re.compile(r'^(?:@\[[^\]]*\]\s*)?(?:private |protected )?(theorem|def|example|instance|structure|inductive|abbrev|namespace|end|open|section|variable|/--|/-|set_option|attribute|deriving instance)', re.M)

def decls(text):
    ms = list(DECL.finditer(text))
    return [(m.start(), ms[k + 1].start() if k + 1 < len(ms) else len(text), m.group(1)) for k, m in enumerate(ms)]

def statement_end(body):
    depth = 0
    i = 0
    while i < len(body):
        c = body[i]
        if c in '([{⟨': depth += 1
        elif c in ')]}⟩': depth -= 1
        elif depth == 0 and body.startswith(':=', i): return i
        elif depth == 0 and body.startswith('\n  | ', i): return i
        elif depth == 0 and body.startswith(' where\n', i): return i
        i += 1
    return None

def failing(out):
    """module file -> set of lines with errors"""
    res = {}
    for m in re.finditer(r'error: (Verif[\w/]*\.lean):(\d+):\d+: (.*)', out):
        res.setdefault(m.group(1), []).append((int(m.group(2)), m.group(3)))
    return res

def deps():
    f = BASE + '/deps.json'
    return json.load(open(f))

def prep():
    """Copies the project to BASE without the evaluated examples, limits the memory of Lean, and builds it."""
    sh(f'mkdir -p {BASE}; rm -rf {BASE}/lean; cp -a {ROOT} {BASE}/lean')
    with open(f'{BASE}/lean/lakefile.toml', 'a') as f: f.write('weakLeanArgs = ["-M7000"]\n')
    for root, _, files in os.walk(BASE + '/lean/Verif'):
        for f in files:
            if not f.endswith('.lean'): continue
            t = open(f'{root}/{f}').read()
            t2 = t
            for d in sorted(decls(t), reverse=True):
                if d[2] == 'example' and 'decide' in t[d[0]:d[1]]:
                    t2 = t2[:d[0]] + 'example : True := trivial\n\n' + t2[d[1]:]
            if t2 != t: open(f'{root}/{f}', 'w').write(t2)
    print(sh('lake build 2>&1 | grep -v warning | tail -5', cwd=BASE + '/lean').stdout)
    sh(f'cp /verif/tools/deps.lean.txt /tmp/deps.lean; lake env lean --run /tmp/deps.lean > {BASE}/deps.json', cwd=BASE + '/lean')
    print(len(deps()), 'property theorems')

def run(mut):
    sh(f'rm -rf {WORK}; cp -a {BASE}/lean {WORK}')
    p = f'{WORK}/{mut["file"]}'
    s = open(p).read()
    if s.count(mut['old']) < 1: return {'error': 'pattern not found'}
    s = s.replace(mut['old'], mut['new'], 1)
    open(p, 'w').write(s)
    failed, killed = {}, []
    t0 = time.time()
    for rnd in range(40):
        r = sh('timeout 2400 lake build 2>&1', cwd=WORK)
        out = r.stdout
        if 'Build completed successfully' in out: break
        fs = failing(out)
        dead = re.findall(r'^- (Verif[\w.]*)$', out, re.M)
        dead = [d.replace('.', '/') + '.lean' for d in dead if d.replace('.', '/') + '.lean' not in fs]
        if not fs and not dead: return {'error': 'build failed without located errors', 'out': out[-1500:]}
        progress = False
        for f, errs in fs.items():
            q = f'{WORK}/{f}'
            t = open(q).read()
            starts = [0]
            for ch in t.split('\n'): starts.append(starts[-1] + len(ch) + 1)
            todo = set()
            ds = decls(t)
            for line, msg in errs:
                off = starts[line - 1]
                for d in ds:
                    if d[0] <= off < d[1]: todo.add(d)
            for d in sorted(todo, reverse=True):
                body = t[d[0]:d[1]]
                if d[2] == 'example':
                    t = t[:d[0]] + 'example : True := trivial\n\n' + t[d[1]:]
                    failed.setdefault(f, []).append('example: ' + ' '.join(body.split())[:80])
                    progress = True
                elif d[2] == 'theorem':
                    m = re.search(r'theorem (\S+)', body)
                    name = m.group(1)
                    e = statement_end(body)
                    if e is None or 'sorry' in body: return {'error': f'cannot skip {name} in {f}', 'out': out[-1500:]}
                    t = t[:d[0]] + body[:e] + ' := by sorry\n\n' + t[d[1]:]
                    failed.setdefault(f, []).append(name)
                    progress = True
                else:
                    return {'error': f'definition broken in {f}: {body[:60]}', 'out': out[-1500:]}
            open(q, 'w').write(t)
        # a module that ran out of memory: some evaluation no longer gives the stated result
        for f in dead:
            q = f'{WORK}/{f}'
            t = open(q).read()
            for d in sorted(decls(t), reverse=True):
                body = t[d[0]:d[1]]
                if d[2] == 'theorem' and 'decide +kernel' in body and statement_end(body) is not None:
                    t = t[:d[0]] + body[:statement_end(body)] + ' := by sorry\n\n' + t[d[1]:]
                    killed.append(re.search(r'theorem (\S+)', body).group(1))
                    progress = True
            open(q, 'w').write(t)
        if not progress: return {'error': 'no progress', 'out': out[-1500:]}
    else:
        return {'error': 'too many rounds', 'failed': failed}
    names = set(n for l in failed.values() for n in l if not n.startswith('example'))
    D = deps()
    props = sorted(c for c, used in D.items() if c.split('.')[-1] in names or any(u.split('.')[-1] in names or u in names or '.'.join(u.split('.')[1:]) in names for u in used))
    return {'props': props, 'evaluations': killed, 'failed': failed, 'seconds': round(time.time() - t0)}

def main():
    if sys.argv[1] == '--prep': return prep()
    muts = json.load(open(sys.argv[1]))
    ids = sys.argv[2:]
    for m in muts:
        if ids and m['id'] not in ids: continue
        r = run(m)
        pr = r.get('props', [])
        short = [x.split('.')[-1] for x in pr]
        missing = [c for c in m['expect'] if not any(s.startswith(c + '_') for s in short)]
        exs = [n for l in r.get('failed', {}).values() for n in l if n.startswith('example')]
        lem = {f: [n for n in l if not n.startswith('example')] for f, l in r.get('failed', {}).items()}
        entry = {'id': m['id'], 'definition': m['definition'], 'edit': m['edit'], 'claim': m['claim'],
                 'expected': m['expect'], 'failed_property_theorems': short,
                 'failed_lemmas': [n for l in lem.values() for n in l if not re.match(r'C\d\d', n)][:25],
                 'failed_examples': len(exs), 'survived': missing, 'tightened': m.get('tightened', []),
                 'failed_or_undecided_evaluations': r.get('evaluations', []), 'seconds': r.get('seconds')}
        if 'error' in r: entry['error'] = r['error']; entry['out'] = r.get('out', '')[-600:]
        print(json.dumps(entry), flush=True)
        if 'error' not in r:
            with open(LOG, 'a') as f: f.write(json.dumps(entry) + '\n')

main()
