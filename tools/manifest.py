#!/usr/bin/env python3
"""Regenerate MANIFEST.json from the theorem names in lean/Verif/Props and the notes in tools/notes.json."""
import json, re, glob, os
root = os.path.dirname(os.path.dirname(os.path.abspath(__file__)))
notes = json.load(open(os.path.join(root, 'tools', 'notes.json')))
thms = {}
for f in sorted(glob.glob(os.path.join(root, 'lean/Verif/Props/*.lean'))):
    for m in re.finditer(r'^theorem (C\d+)(_\w+)', open(f).read(), re.M):
        thms.setdefault(m.group(1), []).append('Verif.Props.' + m.group(1) + m.group(2))
claims = []
for p in sorted(set(thms) | set(notes), key=lambda s: int(s[1:])):
    n = notes[p]
    claims.append({'property': p, 'status': n[0], 'theorems': thms.get(p, []), 'note': n[1]})
json.dump({'claims': claims}, open(os.path.join(root, 'MANIFEST.json'), 'w'), indent=1)
for l in open(os.path.join(root, 'properties.jsonl')):
    i = json.loads(l)['id']
    if i not in notes: print('no claim for', i)
