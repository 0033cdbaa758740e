#!/usr/bin/env python3
"""Regenerate MANIFEST.json from the theorem names in lean/Verif/Props/*.lean.

A theorem `Cnn_...` in a Props file belongs to property Cnn.  A property is "partial" when one of
its theorems has the suffix _partial (or it is listed in PARTIAL), and is left out when it has no
theorem yet.
"""
import json, re, glob, os
root = os.path.dirname(os.path.dirname(os.path.abspath(__file__)))
notes = json.load(open(os.path.join(root, 'tools', 'notes.json')))
thms = {}
for f in sorted(glob.glob(os.path.join(root, 'lean/Verif/Props/*.lean'))):
    ns = []
    for line in open(f):
        m = re.match(r'namespace (\S+)', line)
        if m: ns.append(m.group(1))
        m = re.match(r'end (\S+)', line)
        if m and ns and ns[-1] == m.group(1): ns.pop()
        m = re.match(r'(?:protected |private )?theorem (\S+)', line)
        if m:
            n = m.group(1)
            c = re.match(r'(C\d\d+)_', n)
            if c: thms.setdefault(c.group(1), []).append('.'.join(ns + [n]))
claims = []
for line in open(os.path.join(root, 'properties.jsonl')):
    pid = json.loads(line)['id']
    if pid not in thms: 
        print('no theorem:', pid); continue
    status = 'partial' if any(t.endswith('_partial') for t in thms[pid]) else 'proved'
    claims.append({'property': pid, 'status': status, 'theorems': thms[pid],
                   'note': notes.get(pid, '')})
    if status == 'partial' and pid not in notes: print('partial without note:', pid)
json.dump({'claims': claims}, open(os.path.join(root, 'MANIFEST.json'), 'w'), indent=1)
print(len(claims), 'claims,', sum(len(c['theorems']) for c in claims), 'theorems')
