#!/usr/bin/env python3
"""Regenerate MANIFEST.json: collects theorems named Cxx_* from lean/Verif and
statuses/notes from tools/notes.json."""
import re, json, glob, os
root = os.path.dirname(os.path.dirname(os.path.abspath(__file__)))
props = [json.loads(l)['id'] for l in open(root + '/properties.jsonl') if l.strip()]
notes = json.load(open(root + '/tools/notes.json'))
th = {p: [] for p in props}
for f in sorted(glob.glob(root + '/lean/Verif/**/*.lean', recursive=True)):
    ns = []
    for line in open(f):
        m = re.match(r'namespace\s+(\S+)', line)
        if m: ns.append(m.group(1))
        m = re.match(r'end\s+(\S+)', line)
        if m and ns and ns[-1] == m.group(1): ns.pop()
        m = re.match(r'(?:@\[[^\]]*\]\s*)?theorem\s+(C(\d+)_\S+)', line)
        if m and 'C' + m.group(2) in th:
            th['C' + m.group(2)].append('.'.join(ns + [m.group(1)]))
claims = []
for p in props:
    n = notes.get(p, {})
    if not th[p] and n.get('status') != 'not_applicable':
        print('no theorem for', p); continue
    st = n.get('status') or ('partial' if any('_partial' in t for t in th[p]) else 'proved')
    claims.append({'property': p, 'status': st, 'theorems': th[p], 'note': n.get('note', '')})
json.dump({'claims': claims}, open(root + '/MANIFEST.json', 'w'), indent=1)
print(len(claims), 'claims', sum(len(c['theorems']) for c in claims), 'theorems')
