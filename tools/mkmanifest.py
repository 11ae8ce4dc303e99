#!/usr/bin/env python3
"""Write MANIFEST.json from the theorem names in lean/Verif/Props and tools/notes.json.

A theorem called Cnn_... belongs to property Cnn.  notes.json maps a property id to
[status, note].
"""
import json, pathlib, re
root = pathlib.Path(__file__).resolve().parent.parent
thms = {}
for f in sorted((root / 'lean/Verif/Props').glob('*.lean')):
    for m in re.finditer(r'^theorem (C\d\d+)(_\w+\'?)', f.read_text(), re.M):
        thms.setdefault(m.group(1), []).append('La.' + m.group(1) + m.group(2))
notes = json.loads((root / 'tools/notes.json').read_text())
claims = []
for line in (root / 'properties.jsonl').read_text().splitlines():
    pid = json.loads(line)['id']
    if pid in notes:
        status, note = notes[pid]
        claims.append({'property': pid, 'status': status, 'theorems': thms.get(pid, []), 'note': note})
        if status == 'proved' and any(t.endswith('_partial') for t in thms.get(pid, [])):
            print('warning: proved with _partial', pid)
    elif pid in thms:
        print('warning: theorems but no note', pid)
(root / 'MANIFEST.json').write_text(json.dumps({'claims': claims}, indent=1) + '\n')
print({s: sum(c['status'] == s for c in claims) for s in ('proved', 'partial', 'not_applicable')})
