#!/usr/bin/env python3
"""Writes AXIOMS.md: the axioms of every theorem named in MANIFEST.json, as printed by Lean (needs a built lean/)."""
import json,subprocess,re,collections
c=json.load(open('/verif/MANIFEST.json'))['claims']
names=[]
for x in c:
    for t in x['theorems']:
        if t not in names: names.append(t)
open('/tmp/axioms_scratch.lean','w').write('import Verif\n'+'\n'.join('#print axioms '+n for n in names)+'\n')
r=subprocess.run(['lake','env','lean','/tmp/axioms_scratch.lean'],cwd='/verif/lean',capture_output=True,text=True)
out=r.stdout.replace('\n ',' ')
ax={}
for m in re.finditer(r"'([^']+(?:'[^']*)*?)' (does not depend on any axioms|depends on axioms: \[([^\]]*)\])",out):
    ax[m.group(1)]=[] if m.group(3) is None else sorted(re.split(r',\s*',m.group(3).strip()))
groups=collections.defaultdict(list)
for n in names: groups[tuple(ax[n]) if n in ax else ('?',)].append(n)
with open('/verif/AXIOMS.md','w') as f:
    f.write('# Axioms of the theorems in MANIFEST.json\n\nGenerated by tools/axioms.py from the output of `#print axioms`.\n')
    for g in sorted(groups):
        f.write('\n## '+(', '.join(g) if g else 'no axioms')+f' ({len(groups[g])})\n\n')
        f.write(', '.join(groups[g])+'\n')
print({g:len(v) for g,v in groups.items()}, r.stderr[:300], out[:200] if ('?',) in groups else '')
