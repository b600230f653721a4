#!/usr/bin/env python3
"""Append properties to properties.jsonl: reads a JSON list on stdin."""
import json, sys
new = json.load(sys.stdin)
p = '/verif/properties.jsonl'
lines = [json.loads(l) for l in open(p)]
ids = {d['id']: i for i, d in enumerate(lines)}
for d in new:
    assert set(d) >= {'id', 'title', 'statement', 'quantifier', 'why_tests_cant', 'anchors'}, d
    if d['id'] in ids:
        lines[ids[d['id']]] = d
    else:
        lines.append(d)
with open(p, 'w') as f:
    for d in lines:
        f.write(json.dumps(d, ensure_ascii=False) + '\n')
