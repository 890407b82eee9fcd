#!/usr/bin/env python3
"""Seeded-bug check: apply textual edits to a scratch copy of the Lean project, rebuild one module,
and report which theorems stop compiling.

usage: mutate.py SPEC.json   where SPEC is a list of
  {"file": "Verif/Time/Model.lean", "def": "carryGe", "old": "...", "new": "...",
   "claim": "...", "target": "Verif.Time.Props"}
Each attempt is appended to /verif/seeded/LOG.jsonl unless --dry is given.
"""
import json, os, re, shutil, subprocess, sys
SRC = '/verif/lean'
DST = '/tmp/mut/lean'

def enclosing(path, line):
    name = None
    for i, l in enumerate(open(path).read().split('\n'), 1):
        m = re.match(r'\s*(?:@\[[^\]]*\]\s*)?(?:private |protected |noncomputable )*'
                     r'(theorem|lemma|def|instance|example|abbrev|structure|inductive)\s*([^\s:({\[]*)', l)
        if m:
            name = m.group(2) or m.group(1)
        if i == line:
            return name
    return name

def main():
    dry = '--dry' in sys.argv
    spec = json.load(open([a for a in sys.argv[1:] if not a.startswith('--')][0]))
    os.makedirs('/tmp/mut', exist_ok=True)
    for m in spec:
        subprocess.run(['rsync', '-a', '--delete', SRC + '/', DST + '/'], check=False) \
            if shutil.which('rsync') else \
            subprocess.run(f'rm -rf {DST} && cp -a {SRC} {DST}', shell=True, check=True)
        p = os.path.join(DST, m['file'])
        s = open(p).read()
        if s.count(m['old']) != 1:
            print('PATTERN COUNT', s.count(m['old']), 'for', m['def'], repr(m['old']))
            continue
        open(p, 'w').write(s.replace(m['old'], m['new']))
        # keep going past failing modules: build every module of the area separately
        failed = []
        r = subprocess.run(['lake', 'build'] + m['target'].split(), cwd=DST, capture_output=True, text=True)
        for l in (r.stdout + r.stderr).split('\n'):
            g = re.match(r'error: (\S+\.lean):(\d+):', l)
            if g:
                n = enclosing(os.path.join(DST, g.group(1)), int(g.group(2)))
                if n not in failed:
                    failed.append(n)
        verdict = 'killed' if r.returncode else 'SURVIVED'
        print(verdict, m['def'], '|', m['claim'], '|', failed)
        if not dry:
            with open('/verif/seeded/LOG.jsonl', 'a') as f:
                f.write(json.dumps({'definition': m['def'], 'file': m['file'],
                    'edit': m.get('edit') or f"{m['old'].strip()} -> {m['new'].strip()}",
                    'claim_broken': m['claim'], 'outcome': verdict,
                    'theorems_failed': failed, 'theorems_tightened': m.get('tightened', [])},
                    ensure_ascii=False) + '\n')

main()
