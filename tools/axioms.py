#!/usr/bin/env python3
"""Lists the axioms each theorem of MANIFEST.json depends on, and puts them into DESIGN.md between the markers."""
import json, re, subprocess, collections
names = []
for c in json.load(open('/verif/MANIFEST.json'))['claims']:
    for t in c['theorems']:
        if t not in names: names.append(t)
src = 'import Verif\n' + ''.join(f'#print axioms {t}\n' for t in names)
open('/tmp/axioms.lean', 'w').write(src)
out = subprocess.run(['lake', 'env', 'lean', '/tmp/axioms.lean'], cwd='/verif/lean', capture_output=True, text=True).stdout
groups = collections.OrderedDict()
found = set()
for m in re.finditer(r"'(\S+)' (?:depends on axioms: \[([^\]]*)\]|does not depend on any axioms)", out):
    ax = ', '.join(sorted(a.strip() for a in (m.group(2) or '').split(',') if a.strip())) or 'none'
    groups.setdefault(ax, []).append(m.group(1).replace('Verif.Props.', ''))
    found.add(m.group(1))
missing = [t for t in names if t not in found]
assert not missing, missing
lines = []
for ax in sorted(groups, key=lambda a: (len(a.split(',')) if a != 'none' else 0, a)):
    lines.append(f'* **{ax}** ({len(groups[ax])}): ' + ', '.join(f'`{t}`' for t in groups[ax]))
d = open('/verif/DESIGN.md').read()
a, b = '<!-- axioms -->', '<!-- /axioms -->'
i, j = d.index(a) + len(a), d.index(b)
open('/verif/DESIGN.md', 'w').write(d[:i] + '\n' + '\n'.join(lines) + '\n' + d[j:])
print({k: len(v) for k, v in groups.items()})
