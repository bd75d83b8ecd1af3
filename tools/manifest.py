#!/usr/bin/env python3
"""Generate MANIFEST.json: theorems of property Cnn are those named Cnn_* in lean/Verif."""
import re, json, glob, os, sys
root = os.path.join(os.path.dirname(__file__), '..')
names = {}
for f in sorted(glob.glob(root + '/lean/Verif/**/*.lean', recursive=True)):
    txt = open(f).read()
    ns = re.search(r'^namespace (\S+)', txt, re.M)
    for m in re.finditer(r'^(?:private )?theorem (C\d\d+)_(\S+)', txt, re.M):
        names.setdefault(m.group(1), []).append(ns.group(1) + '.' + m.group(1) + '_' + m.group(2))
ids = [json.loads(l) for l in open(root + '/properties.jsonl')]
notes = json.load(open(root + '/tools/notes.json'))
claims = []
for o in ids:
    i = o['id']
    th = names.get(i, [])
    n = notes.get(i, {})
    st = n.get('status') or ('proved' if th else 'partial')
    if not th and st != 'not_applicable':
        continue
    claims.append({'property': i, 'status': st, 'theorems': th, 'note': n.get('note', '')})
missing = [o['id'] for o in ids if o['id'] not in [c['property'] for c in claims]]
json.dump({'claims': claims}, open(root + '/MANIFEST.json', 'w'), indent=1, ensure_ascii=False)
print('claims', len(claims), 'theorems', sum(len(c['theorems']) for c in claims), 'without theorem:', missing)
