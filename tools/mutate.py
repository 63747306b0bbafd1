#!/usr/bin/env python3
"""Run seeded-bug experiments in a scratch copy. usage: mutate.py mutations.json
Each mutation: {"def","file","old","new","claim","edit"}; results are appended to seeded/LOG.jsonl."""
import json,sys,subprocess,os,re,shutil
SRC='/verif/lean'; DST='/tmp/mut/lean'
def sync():
    os.makedirs('/tmp/mut',exist_ok=True)
    subprocess.run(['rsync','-a','--delete',SRC+'/',DST+'/'],check=True) if shutil.which('rsync') else (shutil.rmtree(DST,ignore_errors=True),subprocess.run(['cp','-a',SRC,DST],check=True))
def thm_at(path,line):
    ls=open(path).read().split('\n')
    for i in range(line-1,-1,-1):
        m=re.match(r'\s*(?:@\[[^\]]*\]\s*)?(?:private |noncomputable |omit .* in )*(theorem|lemma|def|instance|example|structure|abbrev)\b\s*([^\s:({\[]*)',ls[i])
        if m: return (m.group(1)+'@%d'%(i+1)) if m.group(1)=='example' else (m.group(2) or m.group(1))
    return '?'
sync()
muts=json.load(open(sys.argv[1]))
for m in muts:
    p=f"{DST}/Verif/{m['file']}"
    base=open(f"{SRC}/Verif/{m['file']}").read()
    if base.count(m['old'])!=m.get('count',1):
        print('BAD MATCH',m['def'],base.count(m['old'])); continue
    open(p,'w').write(base.replace(m['old'],m['new']))
    r=subprocess.run('timeout 1500 lake build 2>&1',shell=True,cwd=DST,capture_output=True,text=True)
    failed=[];mods=[]
    for l in r.stdout.split('\n'):
        x=re.match(r'error: (Verif/\S+\.lean):(\d+):',l)
        if x:
            t=thm_at(f"{DST}/{x.group(1)}",int(x.group(2)))
            if t not in failed: failed.append(t)
        y=re.match(r'- (Verif\.\S+)',l)
        if y: mods.append(y.group(1))
    rec={"definition":m['def'],"edit":m['edit'],"claim":m['claim'],"theorems_failed":failed,"failed_modules":mods,"theorems_tightened":m.get('tightened',[])}
    print(('CAUGHT ' if r.returncode else 'SURVIVED ')+m['def'],'|',m['edit'],'|',failed[:6],mods,flush=True)
    if not r.returncode: rec['note']='SURVIVED'
    open('/tmp/mut/results.jsonl','a').write(json.dumps(rec)+'\n')
    open(p,'w').write(base)
