#!/usr/bin/env python3
"""Refresh the import list of Verif/Audit.lean and write AXIOMS.md (axioms of every property theorem).
Run after a successful `lake build`."""
import json, os, re, subprocess, tempfile
V = os.path.dirname(os.path.dirname(os.path.abspath(__file__)))
L = V + '/lean'
mods = [l.strip() for l in open(L + '/Verif.lean') if l.startswith('import ') and 'Verif.Audit' not in l]
p = L + '/Verif/Audit.lean'
s = open(p).read()
i = s.index('/-!')
new = 'import Lean.Util.CollectAxioms\nimport Lean.Elab.Command\n' + '\n'.join(mods) + '\n\n' + s[i:]
if new != s:
    open(p, 'w').write(new)
claims = json.load(open(V + '/MANIFEST.json'))['claims']
t = '\n'.join(mods) + '\n' + '\n'.join(
    '#print axioms %s' % n for c in claims for n in c['theorems'])
with tempfile.NamedTemporaryFile('w', suffix='.lean', delete=False) as f:
    f.write(t)
out = subprocess.run(['lake', 'env', 'lean', f.name], cwd=L, capture_output=True, text=True).stdout
os.unlink(f.name)
ax = {}
for m in re.finditer(r"'([^']+(?:'[^' ]*)*)' (?:depends on axioms: \[([^\]]*)\]|does not depend on any axioms)", out):
    ax[m.group(1)] = ', '.join(x.strip() for x in (m.group(2) or '').split(',')) or 'none'
with open(V + '/AXIOMS.md', 'w') as f:
    f.write('# Axioms of the property theorems\n\nGenerated by `tools/audit.py` from `#print axioms`.\n\n')
    groups = {}
    for c in claims:
        for n in c['theorems']:
            groups.setdefault(ax.get(n, 'UNKNOWN'), []).append(n)
    for g in sorted(groups):
        f.write('## %s (%d)\n\n' % (g, len(groups[g])))
        for n in groups[g]:
            f.write('* `%s`\n' % n)
        f.write('\n')
print({g: len(v) for g, v in groups.items()})
