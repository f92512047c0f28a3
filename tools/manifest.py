#!/usr/bin/env python3
"""Regenerate MANIFEST.json from the theorem names in lean/Verif/**/Props*.lean and tools/notes.json.

A property is `partial` when one of its theorems is named *_partial, otherwise `proved`.
"""
import json, re, glob, collections, os
root = os.path.dirname(os.path.dirname(os.path.abspath(__file__)))
thms = collections.defaultdict(list)
for f in sorted(glob.glob(root + '/lean/Verif/**/*.lean', recursive=True)):
    ns = []
    for line in open(f):
        if m := re.match(r'namespace (\S+)', line): ns.append(m.group(1))
        elif (m := re.match(r'end (\S+)', line)) and ns and ns[-1] == m.group(1): ns.pop()
        elif m := re.match(r'theorem (C(\d\d+)_\w+)', line):
            thms['C' + m.group(2)].append('.'.join(ns + [m.group(1)]))
notes = json.load(open(root + '/tools/notes.json'))
ids = [json.loads(l)['id'] for l in open(root + '/properties.jsonl')]
claims = []
for i in ids:
    if i not in thms: continue
    n = notes.get(i, {})
    status = 'partial' if (any(t.endswith('_partial') for t in thms[i]) or n.get('partial')) else 'proved'
    claims.append({'property': i, 'status': status, 'theorems': thms[i], 'note': n.get('note', '')})
json.dump({'claims': claims}, open(root + '/MANIFEST.json', 'w'), indent=1, ensure_ascii=False)
print(len(claims), 'claims; missing:', [i for i in ids if i not in thms])
