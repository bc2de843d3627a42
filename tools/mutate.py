#!/usr/bin/env python3
"""Seeded-bug testing.  usage: mutate.py edits.json
Each edit {file, old, new, def, edit, claim} is applied to a scratch copy of the sources; every module that depends on the
edited one is elaborated again, keeping going after errors (a failed proof becomes an incomplete one), and the Props theorems whose
proof is then incomplete, directly or through a lemma, are logged as failed in /verif/seeded/LOG.jsonl."""
import json, os, re, subprocess, sys, time, shutil
from concurrent.futures import ThreadPoolExecutor, wait, FIRST_COMPLETED
edits = json.load(open(sys.argv[1]))
SNAP = os.environ.get('SNAP', '/tmp/snap')  # a built copy of /verif/lean
W = '/tmp/mutsrc'; O = '/tmp/mutolean'; FORGE = '/verif/tools/Forge.lean.txt'
shutil.copy(FORGE, '/tmp/Forge.lean')
shutil.rmtree(W, ignore_errors=True); shutil.copytree(SNAP + '/Verif', W + '/Verif')
shutil.rmtree('/tmp/mutbase', ignore_errors=True); shutil.copytree(SNAP + '/.lake/build/lib/lean', '/tmp/mutbase')
LP = subprocess.run('lake env printenv LEAN_PATH', shell=True, cwd=SNAP, capture_output=True, text=True).stdout.strip()
rest = ':'.join(p for p in LP.split(':') if '.lake/build/lib' not in p or 'mathlib' in p.lower() or '/packages/' in p)
env = dict(os.environ, LEAN_PATH=O + ':' + rest)
mods = {}
for d, _, fs in os.walk(W + '/Verif'):
    for f in fs:
        if f.endswith('.lean'):
            p = os.path.join(d, f); name = os.path.relpath(p, W)[:-5].replace('/', '.')
            mods[name] = (p, re.findall(r'^import (Verif\.\S+)', open(p).read(), re.M))
def affected(m):
    s = {m}
    while True:
        n = {x for x in mods if x not in s and any(i in s for i in mods[x][1])}
        if not n: return s
        s |= n
def compile1(m):
    out = os.path.join(O, m.replace('.', '/') + '.olean')
    if os.path.exists(out): os.remove(out)
    p = subprocess.run(['lean', '--run', '/tmp/Forge.lean', mods[m][0], m, out], env=env, capture_output=True, text=True, timeout=1500)
    return m, p.stdout, p.stderr
def decl_at(path, line):
    name = '?'
    for i, l in enumerate(open(path), 1):
        if i > line: break
        k = re.match(r'\s*(?:private |protected |noncomputable |@\[[^\]]*\] )*(theorem|lemma|def|instance|example|structure|inductive|abbrev)\s*([\w.\'?!₀-₉]*)', l)
        if k: name = k.group(2) or k.group(1) + '@%d' % i
    return name
for e in edits:
    path = os.path.join(W, 'Verif', e['file']); mod = 'Verif.' + e['file'][:-5].replace('/', '.')
    src = open(path).read()
    if src.count(e['old']) != e.get('count', 1):
        print('SKIP (count %d): %s %s' % (src.count(e['old']), e['file'], e['edit']), flush=True); continue
    t = time.time()
    shutil.rmtree(O, ignore_errors=True); subprocess.check_call(['cp', '-al', '/tmp/mutbase', O])
    open(path, 'w').write(src.replace(e['old'], e['new']))
    try:
        todo = affected(mod); done = set(mods) - todo; errs = []; tainted = []; invalid = False; crashed = []
        with ThreadPoolExecutor(4) as ex:
            running = set(); started = set()
            while todo - done:
                for m in sorted(todo - done - started):
                    if all(i in done for i in mods[m][1]):
                        started.add(m); running.add(ex.submit(compile1, m))
                fin, running = wait(running, return_when=FIRST_COMPLETED)
                for f in fin:
                    m, out, err = f.result(); done.add(m)
                    for k in re.finditer(r'^error: (\S+):(\d+)', out, re.M):
                        n = decl_at(k.group(1), int(k.group(2)))
                        if m == mod: invalid = True
                        if (m, n) not in errs: errs.append((m, n))
                    tainted += re.findall(r'^tainted: (\S+)', out, re.M)
                    if err.strip(): crashed.append(m + ': ' + err.strip()[-200:])
    finally:
        open(path, 'w').write(src)
    if invalid:
        print('INVALID edit', e['file'], e['edit'], errs[:3], flush=True); continue
    top = sorted({x.split('.')[-1] for x in tainted if re.match(r'C\d+_', x.split('.')[-1])})
    direct = ['%s:%s' % (m[6:], n) for m, n in errs]
    rec = {'definition': e['def'], 'file': e['file'], 'edit': e['edit'], 'claim': e['claim'], 'caught': bool(errs), 'proofs_broken': direct, 'theorems_failed': top, 'theorems_tightened': e.get('tightened', [])}
    if e.get('note'): rec['note'] = e['note']
    print(('caught ' if errs else 'SURVIVED ') + e['file'] + ' | ' + e['edit'] + ' | ' + e['claim'] + ' -> ' + ', '.join(top)[:600] + ' || ' + ', '.join(x for x in direct if 'example' in x)[:200] + ' ' + ';'.join(crashed)[:300], '%ds' % (time.time() - t), flush=True)
    with open('/verif/seeded/LOG.jsonl', 'a') as f: f.write(json.dumps(rec) + '\n')
