#!/usr/bin/env python3
"""Collects theorem names C<nn>_* from lean/Verif/Props and writes MANIFEST.json. Notes/status overrides below."""
import re, json, glob, os
root = os.path.dirname(os.path.dirname(os.path.abspath(__file__)))
props = [json.loads(l)['id'] for l in open(root + '/properties.jsonl')]
NOTES = json.load(open(root + '/tools/notes.json'))
ths = {}
for f in sorted(glob.glob(root + '/lean/Verif/Props/*.lean')):
    src = open(f).read()
    ns = []
    for line in src.split('\n'):
        m = re.match(r'namespace (\S+)', line)
        if m: ns.append(m.group(1))
        m = re.match(r'end (\S+)', line)
        if m and ns and ns[-1] == m.group(1): ns.pop()
        m = re.match(r'(?:@\[[^\]]*\] )?theorem (C(\d\d)_\S+)', line)
        if m: ths.setdefault('C' + m.group(2), []).append('.'.join(ns + [m.group(1)]))
claims = []
for p in props:
    n = NOTES.get(p, {})
    t = ths.get(p, [])
    if not t and 'status' not in n: continue
    st = n.get('status') or ('partial' if any(x.endswith('_partial') for x in t) else 'proved')
    claims.append({"property": p, "status": st, "theorems": t, "note": n.get('note', '')})
json.dump({"claims": claims}, open(root + '/MANIFEST.json', 'w'), indent=1)
print(len(claims), 'claims', sum(len(c['theorems']) for c in claims), 'theorems')
