#!/usr/bin/env python3
"""Regenerate MANIFEST.json from the theorem names in lean/Verif/Props and the notes below."""
import glob, json, os, re
root = os.path.dirname(os.path.dirname(os.path.abspath(__file__)))
notes = json.load(open(os.path.join(root, 'tools', 'notes.json')))
props = [json.loads(l)['id'] for l in open(os.path.join(root, 'properties.jsonl')) if l.strip()]
thms = {p: [] for p in props}
for f in sorted(glob.glob(os.path.join(root, 'lean/Verif/Props/*.lean'))):
    for m in re.finditer(r'^theorem (C\d\d\w*)', open(f).read(), re.M):
        thms.setdefault(m.group(1)[:3], []).append('Argtable.' + m.group(1))
claims = []
for p in props:
    n = notes.get(p, {})
    if not thms[p] and n.get('status') != 'not_applicable':
        continue
    status = n.get('status') or ('partial' if any(t.endswith('_partial') for t in thms[p]) else 'proved')
    claims.append({'property': p, 'status': status, 'theorems': thms[p], 'note': n.get('note', '')})
json.dump({'claims': claims}, open(os.path.join(root, 'MANIFEST.json'), 'w'), indent=1, ensure_ascii=False)
print(len(claims), 'claims;', 'missing:', [p for p in props if p not in [c['property'] for c in claims]])
