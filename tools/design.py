#!/usr/bin/env python3
"""Writes DESIGN.md: tools/design_head.md, the table per property (from properties.jsonl, MANIFEST.json and
tools/plan.json), then tools/design_tail.md."""
import json, os, re, glob
root = os.path.dirname(os.path.dirname(os.path.abspath(__file__)))
plan = json.load(open(root + '/tools/plan.json'))
man = {c['property']: c for c in json.load(open(root + '/MANIFEST.json'))['claims']}
where = {}
for f in glob.glob(root + '/lean/Verif/Props/*.lean'):
    for t in re.findall(r'^theorem (C\d+)_', open(f).read(), re.M):
        where.setdefault(t, set()).add(os.path.basename(f)[:-5])
out = [open(root + '/tools/design_head.md').read()]
out.append('| id | property | modelled in `Model/` | how it is proved | theorems in `Props/` | status |\n|---|---|---|---|---|---|')
dis = []
for l in open(root + '/properties.jsonl'):
    p = json.loads(l); i = p['id']; m, h = plan.get(i, ['', ''])
    c = man.get(i, {'status': 'not started', 'note': ''})
    out.append(f"| {i} | {p['title']} | {m} | {h} | {', '.join(sorted(where.get(i, [])))} | {c['status']} |")
    if c['note']: dis.append(f"* **{i}** ({p['title']}; {c['status']}): {c['note']}")
out.append('\n## What is not proved, and why: disagreements between the code and the properties\n\n'
 'The properties are stated as a user would state them.  Where the code does not have the property, the\n'
 'negation is proved of the model with a concrete witness (theorem names in the notes or with suffix\n'
 '`_refuted`), and the part that does hold is proved with suffix `_partial`.  In every case below the part\n'
 'that is missing is missing because the code does not have it, unless the note says otherwise.\n')
out += dis
out.append('\n' + open(root + '/tools/design_tail.md').read())
open(root + '/DESIGN.md', 'w').write('\n'.join(out))
