"""usage: adddesign.py < json {row: "| C65 | ... |", area: "| Mat | ... |", findings: ["* ..."]}"""
import sys, json
d = json.load(sys.stdin)
p = '/verif/DESIGN.md'
L = open(p).read().split('\n')
if d.get('row'):
    i = max(i for i, l in enumerate(L) if l.startswith('| C'))
    L.insert(i + 1, d['row'])
if d.get('area'):
    i = [i for i, l in enumerate(L) if l.startswith('Not modelled')][0]
    L.insert(i - 1, d['area'])
if d.get('findings'):
    i = [i for i, l in enumerate(L) if l.startswith('## Behaviour found')][0]
    k = i + 1
    last = k
    while k < len(L) and not L[k].startswith('## '):
        if L[k].startswith('* ') or L[k].startswith('  '):
            last = k
        k += 1
    for f in d['findings']:
        L.insert(last + 1, f)
        last += 1
open(p, 'w').write('\n'.join(L))
