#!/usr/bin/env python3
"""Writes /verif/AXIOMS.md: the axioms of every theorem named in MANIFEST.json, from `#print axioms`. Run after `lake build`."""
import json, subprocess, re, collections
m = json.load(open('/verif/MANIFEST.json'))
names = []
for c in m['claims']:
    for t in c['theorems']:
        if t not in names: names.append(t)
src = 'import Verif\n' + '\n'.join(f'#print axioms {n}' for n in names) + '\n'
open('/tmp/axioms.lean', 'w').write(src)
out = subprocess.run(['lake', 'env', 'lean', '/tmp/axioms.lean'], cwd='/verif/lean', capture_output=True, text=True)
txt = re.sub(r'\n\s+', ' ', out.stdout)
res = {}
for l in txt.splitlines():
    a = re.match(r"'(.+)' depends on axioms: \[(.*)\]", l)
    b = re.match(r"'(.+)' does not depend on any axioms", l)
    if a: res[a.group(1)] = tuple(sorted(x.strip() for x in a.group(2).split(',')))
    elif b: res[b.group(1)] = ()
missing = [n for n in names if n not in res]
assert not missing, (missing, out.stdout[-2000:], out.stderr)
g = collections.defaultdict(list)
for n in names: g[res[n]].append(n)
with open('/verif/AXIOMS.md', 'w') as f:
    f.write('# Axioms of the theorems named in MANIFEST.json\n\nGenerated by `tools/axioms.py` from `#print axioms`.\n')
    for k in sorted(g):
        f.write(f"\n## {', '.join(k) if k else 'no axioms'} ({len(g[k])} theorems)\n\n")
        f.write('\n'.join('* `' + n + '`' for n in g[k]) + '\n')
print({k: len(v) for k, v in g.items()})
