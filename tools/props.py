#!/usr/bin/env python3
"""Source of properties.jsonl.  P(id, title, statement, quantifier, why, anchors)."""
import json, os
OUT = []
def P(id, title, statement, quantifier, why, anchors):
    OUT.append(dict(id=id, title=title, statement=statement, quantifier=quantifier,
                    why_tests_cant=why, anchors=anchors))
def load(path):
    with open(path) as f:
        exec(compile(f.read(), path, 'exec'), globals())
here = os.path.dirname(os.path.abspath(__file__))
load(os.path.join(here, 'props_data.py'))
ids = [o['id'] for o in OUT]
assert len(ids) == len(set(ids)), 'duplicate id'
with open(os.path.join(here, '..', 'properties.jsonl'), 'w') as f:
    for o in OUT:
        f.write(json.dumps(o, ensure_ascii=False) + '\n')
print(len(OUT), 'properties')
