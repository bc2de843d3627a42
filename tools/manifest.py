#!/usr/bin/env python3
"""Regenerates /verif/MANIFEST.json: theorem names are taken from lean/Verif/Props by their Cxx_ prefix,
status and note from tools/status.json (default: proved)."""
import json, re, glob, os
root = os.path.dirname(os.path.dirname(os.path.abspath(__file__)))
thms = {}
for f in sorted(glob.glob(root + '/lean/Verif/Props/*.lean')):
    src = open(f).read()
    stack = []
    for line in src.split('\n'):
        m = re.match(r'^namespace (\S+)', line)
        if m: stack.append(m.group(1)); continue
        m = re.match(r'^end (\S+)', line)
        if m and stack and stack[-1] == m.group(1): stack.pop(); continue
        m = re.match(r'^theorem (C\d+_\w+)', line)
        if m: thms.setdefault(m.group(1).split('_')[0], []).append('.'.join(stack + [m.group(1)]))
st = json.load(open(root + '/tools/status.json'))
claims = []
for line in open(root + '/properties.jsonl'):
    pid = json.loads(line)['id']
    if pid not in thms: continue
    s = st.get(pid, ["proved", ""])
    claims.append({"property": pid, "status": s[0], "theorems": thms[pid], "note": s[1]})
json.dump({"claims": claims}, open(root + '/MANIFEST.json', 'w'), indent=1)
print(len(claims), 'claims', sum(len(c['theorems']) for c in claims), 'theorems')
