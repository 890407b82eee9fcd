#!/usr/bin/env python3
"""Fill the generated part of DESIGN.md from properties.jsonl and MANIFEST.json."""
import json, os, re
V = os.path.dirname(os.path.dirname(os.path.abspath(__file__)))
M = {c['property']: c for c in json.load(open(V + '/MANIFEST.json'))['claims']}
rows = ['| id | property | status | modelled in | what is proved and what is not |', '|---|---|---|---|---|']
src = {}
for root, _, fs in os.walk(V + '/lean/Verif'):
    for f in fs:
        if f.endswith('.lean'):
            p = os.path.join(root, f)
            for n in re.findall(r'^(?:theorem|lemma)\s+(C\d+_\S+)', open(p).read(), re.M):
                src.setdefault(n.split('_')[0], set()).add(os.path.relpath(p, V + '/lean/Verif')[:-5].replace('/', '.'))
for l in open(V + '/properties.jsonl'):
    d = json.loads(l)
    c = M.get(d['id'], {})
    rows.append('| %s | %s | %s | %s | %s |' % (
        d['id'], d['title'], c.get('status', 'open'), ', '.join(sorted(src.get(d['id'], []))),
        (c.get('note') or 'The full statement.').replace('|', '\\|')))
p = V + '/DESIGN.md'
s = open(p).read()
a, b = '<!-- BEGIN GENERATED -->', '<!-- END GENERATED -->'
s = s[:s.index(a) + len(a)] + '\n' + '\n'.join(rows) + '\n' + s[s.index(b):]
open(p, 'w').write(s)
