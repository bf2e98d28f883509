#!/usr/bin/env python3
"""Regenerate MANIFEST.json from the theorems C??_* of lean/Verif/Props and the notes below."""
import re, json, glob, os
root = os.path.dirname(os.path.dirname(os.path.abspath(__file__)))
notes = json.load(open(os.path.join(root, 'tools', 'notes.json')))
thms = {}
for f in sorted(glob.glob(os.path.join(root, 'lean/Verif/Props/*.lean'))):
    src = open(f).read()
    ns = []
    for line in src.splitlines():
        m = re.match(r'namespace (\S+)', line)
        if m: ns.append(m.group(1))
        m = re.match(r'end (\S+)', line)
        if m and ns and ns[-1] == m.group(1): ns.pop()
        m = re.match(r'theorem (C\d\d)_(\w+)', line)
        if m: thms.setdefault(m.group(1), []).append('.'.join(ns + [m.group(1) + '_' + m.group(2)]))
claims = []
for l in open(os.path.join(root, 'properties.jsonl')):
    pid = json.loads(l)['id']
    t = thms.get(pid, [])
    n = notes.get(pid, {})
    st = n.get('status') or ('partial' if any(x.endswith('_partial') for x in t) else 'proved')
    if not t: continue
    claims.append({'property': pid, 'status': st, 'theorems': t, 'note': n.get('note', '')})
json.dump({'claims': claims}, open(os.path.join(root, 'MANIFEST.json'), 'w'), indent=1, ensure_ascii=False)
print(len(claims), 'claims', sum(len(c['theorems']) for c in claims), 'theorems', [c['property'] for c in claims if c['status'] != 'proved'])
