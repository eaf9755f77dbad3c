#!/usr/bin/env python3
"""Regenerates MANIFEST.json from the theorem names (`Cnn_...`) in lean/Verif and tools/notes.json."""
import json, re, pathlib
root = pathlib.Path(__file__).resolve().parent.parent
props = [json.loads(l) for l in open(root / 'properties.jsonl')]
notes = json.load(open(root / 'tools' / 'notes.json'))
thms = {}
for f in sorted((root / 'lean' / 'Verif').rglob('*.lean')):
    stack = []
    for line in open(f):
        m = re.match(r'namespace (\S+)', line)
        if m: stack.append(m.group(1))
        m = re.match(r'end (\S+)', line)
        if m and stack and stack[-1] == m.group(1): stack.pop()
        m = re.match(r'theorem (C\d\d+)(_\S+)', line)
        if m: thms.setdefault(m.group(1), []).append('.'.join(stack + [m.group(1) + m.group(2)]))
claims = []
for p in props:
    i = p['id']
    t = thms.get(i, [])
    n = notes.get(i, {})
    if not t:
        if n.get('status') == 'not_applicable':
            claims.append({"property": i, "status": "not_applicable", "theorems": [], "note": n['note']})
        else:
            print('missing', i)
        continue
    partial = any(x.endswith('_partial') for x in t)
    status = n.get('status', 'partial' if partial else 'proved')
    claims.append({"property": i, "status": status, "theorems": t, "note": n.get('note', '')})
for i in thms:
    if i not in [p['id'] for p in props]: print('no property for', i)
json.dump({"claims": claims}, open(root / 'MANIFEST.json', 'w'), indent=1)
print(len(claims), 'claims', sum(c['status'] == 'proved' for c in claims), 'proved',
      sum(c['status'] == 'partial' for c in claims), 'partial')
