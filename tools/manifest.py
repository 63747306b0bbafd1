#!/usr/bin/env python3
"""Regenerates MANIFEST.json: collects the theorems Cnn_* of lean/Verif/Props and the
statuses / notes of tools/status.json."""
import re, json, glob
ids=[json.loads(l)['id'] for l in open('/verif/properties.jsonl')]
st=json.load(open('/verif/tools/status.json'))
th={i:[] for i in ids}
for f in sorted(glob.glob('/verif/lean/Verif/Props/*.lean')):
    ns=[]
    for line in open(f):
        m=re.match(r'namespace (\S+)',line)
        if m: ns.append(m.group(1))
        m=re.match(r'end (\S+)',line)
        if m and ns and ns[-1]==m.group(1): ns.pop()
        m=re.match(r'theorem (C\d\d)_(\S+)',line)
        if m: th[m.group(1)].append('.'.join(ns+[m.group(1)+'_'+m.group(2)]))
cl=[]
for i in ids:
    s=st.get(i,{})
    status=s.get('status') or ('proved' if th[i] and not any(t.endswith('_partial') for t in th[i]) else 'partial')
    note=s.get('note','') or ('' if th[i] else 'not modelled yet')
    cl.append(dict(property=i,status=status,theorems=th[i],note=note))
json.dump(dict(claims=cl),open('/verif/MANIFEST.json','w'),indent=1)
print({k:sum(c['status']==k for c in cl) for k in('proved','partial','not_applicable')}, [c['property'] for c in cl if not c['theorems']])
