#!/usr/bin/env python3
"""Writes AXIOMS.md: the axioms of every theorem named in MANIFEST.json (run after a build)."""
import json,re,subprocess
m=json.load(open('/verif/MANIFEST.json'))['claims']
open('/tmp/ax.lean','w').write('import Verif\n'+'\n'.join('#print axioms '+t for c in m for t in c['theorems'])+'\n')
s=subprocess.run('lake env lean /tmp/ax.lean',shell=True,cwd='/verif/lean',capture_output=True,text=True).stdout
s=re.sub(r'\n\s+',' ',s)
ax={}
for l in s.split('\n'):
    x=re.match(r"'(\S+)' depends on axioms: \[(.*)\]",l)
    if x: ax[x.group(1)]=x.group(2)
    else:
        x=re.match(r"'(\S+)' does not depend on any axioms",l)
        if x: ax[x.group(1)]='none'
        elif l: print('?',l)
with open('/verif/AXIOMS.md','w') as f:
    f.write('# Axioms of every theorem of MANIFEST.json\n\nOutput of `#print axioms` (tools/axioms.py).\n\n| Property | Theorem | Axioms |\n|---|---|---|\n')
    for c in m:
        for t in c['theorems']: f.write(f"| {c['property']} | `{t.split('.')[-1]}` | {ax.get(t,'?')} |\n")
print(len(ax))
