#!/usr/bin/env python3
"""Generates MANIFEST.json.  Theorems named C<nn>_... in Verif/**/Props*.lean are attached to
property C<nn> automatically; the status and note come from manifest_data.py."""
import glob, json, re, sys
sys.path.insert(0, '/verif/tools')
from manifest_data import STATUS
thms = {}
for f in sorted(glob.glob('/verif/lean/Verif/**/*.lean', recursive=True)):
    ns = []
    for l in open(f):
        m = re.match(r'namespace\s+(\S+)', l)
        if m: ns.append(m.group(1))
        m = re.match(r'end\s+(\S+)', l)
        if m and ns and ns[-1] == m.group(1): ns.pop()
        m = re.match(r'(?:@\[[^\]]*\]\s*)?(?:protected\s+)?theorem\s+((C\d+)_\S+)', l)
        if m: thms.setdefault(m.group(2), []).append('.'.join(ns + [m.group(1)]))
claims = []
ids = [json.loads(l)['id'] for l in open('/verif/properties.jsonl')]
for i in ids:
    if i in STATUS:
        st, note = STATUS[i]
        if st != 'not_applicable' and i not in thms:
            print('WARNING: no theorem for', i)
        claims.append({'property': i, 'status': st, 'theorems': thms.get(i, []), 'note': note})
    elif i in thms:
        print('WARNING: theorems but no status for', i)
for i in thms:
    if i not in ids: print('WARNING: theorem for unknown property', i)
json.dump({'claims': claims}, open('/verif/MANIFEST.json', 'w'), indent=1, ensure_ascii=False)
print(len(claims), 'claims of', len(ids), 'properties;', sum(map(len, thms.values())), 'theorems')
