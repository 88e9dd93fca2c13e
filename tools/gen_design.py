#!/usr/bin/env python3
"""Put DESIGN.md together (run in /verif after `lake build`)."""
import json, subprocess, re, os
V = os.path.dirname(os.path.dirname(os.path.abspath(__file__)))
m = json.load(open(V + '/MANIFEST.json'))['claims']
p = {}
for l in open(V + '/properties.jsonl'):
    if l.strip():
        d = json.loads(l); p[d['id']] = d
ths = [t for c in m for t in c['theorems']]
f = '/tmp/axioms_check.lean'
open(f, 'w').write('import Verif\n' + ''.join(f'#print axioms {t}\n' for t in ths))
out = subprocess.run(['lake', 'env', 'lean', f], cwd=V + '/lean', capture_output=True, text=True).stdout
out = re.sub(r'\n\s+', ' ', out)
ax = {}
for x in re.finditer(r"'([^']+)' depends on axioms: \[([^\]]*)\]", out): ax[x.group(1)] = x.group(2)
for x in re.finditer(r"'([^']+)' does not depend on any axioms", out): ax[x.group(1)] = 'none'
o = open(V + '/tools/scope.md').read()
o += '\n## Per property\n\nThe model and the method of proof follow from the directory: invariants over all event lists unless the note says otherwise.\n\n| id | property | where | status | note |\n|---|---|---|---|---|\n'
done = {c['property']: c for c in m}
for k in sorted(p):
    c = done.get(k)
    if c is None:
        o += f"| {k} | {p[k]['title']} | - | planned | |\n"; continue
    where = sorted({t.split('.')[1] for t in c['theorems'] if '.' in t}) or ['-']
    o += f"| {k} | {p[k]['title']} | {', '.join(where)} | {c['status']} | {c['note'].replace('|', '/')} |\n"
o += '\n## Axioms of each theorem\n\n'
g = {}
for t in ths: g.setdefault(ax.get(t, '?'), []).append(t)
for a in sorted(g):
    o += f"* {a}: " + ', '.join('`' + t.replace('Casual.', '', 1) + '`' for t in g[a]) + '\n'
open(V + '/DESIGN.md', 'w').write(o)
print({a: len(v) for a, v in g.items()})
