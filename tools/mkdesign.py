#!/usr/bin/env python3
"""Write DESIGN.md from tools/design (head.md, methods.json, tail.md), properties.jsonl and MANIFEST.json.

methods.json maps a property id to [what is modelled, how the theorems are proved].
"""
import json, pathlib, re
root = pathlib.Path(__file__).resolve().parent.parent
src = root / 'tools/design'
where = {}
for f in sorted((root / 'lean/Verif/Props').glob('*.lean')):
    for m in re.finditer(r"^theorem (C\d\d+_\w+'?)", f.read_text(), re.M):
        where['La.' + m.group(1)] = 'Props/' + f.name
claims = {c['property']: c for c in json.loads((root / 'MANIFEST.json').read_text())['claims']}
meth = json.loads((src / 'methods.json').read_text())
out = [(src / 'head.md').read_text().rstrip() + '\n']
for line in (root / 'properties.jsonl').read_text().splitlines():
    p = json.loads(line)
    c = claims[p['id']]
    model, proof = meth[p['id']]
    files = ', '.join('`%s`' % f for f in sorted({where[t] for t in c['theorems']}))
    out.append('### %s %s\n' % (p['id'], p['title']))
    out.append('*Model:* %s  ' % model)
    out.append('*Theorems (%s):* %s in %s  ' % (c['status'], ', '.join('`%s`' % t[3:] for t in c['theorems']), files))
    out.append('*Proof:* %s  ' % proof)
    out.append('*Scope:* %s\n' % c['note'])
out.append((src / 'tail.md').read_text().rstrip() + '\n')
(root / 'DESIGN.md').write_text('\n'.join(out))
