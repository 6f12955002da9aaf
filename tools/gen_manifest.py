#!/usr/bin/env python3
"""Regenerates MANIFEST.json from the property theorems (names C<nn>_...) in lean/Verif/Props and
the notes in tools/notes.json."""
import glob, json, os, re
root = os.path.dirname(os.path.dirname(os.path.abspath(__file__)))
names = {}
for f in sorted(glob.glob(root + '/lean/Verif/Props/*.lean')):
    for m in re.finditer(r'^(?:private )?theorem (C(\d+)_[\w\.\']+)', open(f).read(), re.M):
        names.setdefault('C' + m.group(2), []).append('Aql.' + m.group(1))
notes = json.load(open(root + '/tools/notes.json'))
claims = []
for l in open(root + '/properties.jsonl'):
    pid = json.loads(l)['id']
    if pid not in names:
        continue
    n = notes.get(pid, {})
    status = n.get('status', 'proved')
    claims.append({'property': pid, 'status': status, 'theorems': names[pid], 'note': n.get('note', '')})
json.dump({'claims': claims}, open(root + '/MANIFEST.json', 'w'), indent=1)
print(len(claims), 'claims', sum(len(c['theorems']) for c in claims), 'theorems')
