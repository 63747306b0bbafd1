#!/usr/bin/env python3
"""Automatic mutation sweep over the model, in a scratch copy outside /verif.
usage: sweep.py SEED COUNT [file-substring]   results: /tmp/sweep/results.jsonl
A mutant counts as caught at the first error outside Verif/Model (the build is then stopped); an error inside Verif/Model means
the mutant is not a well-formed program (skipped)."""
import sys,os,re,random,subprocess,json,signal,time,shutil
SRC='/verif/lean'; BASE='/tmp/sweep/base'; DST='/tmp/sweep/lean'
sys.path.insert(0,'/verif/tools')
def thm_at(path,line):
    ls=open(path).read().split('\n')
    for i in range(line-1,-1,-1):
        m=re.match(r'\s*(?:@\[[^\]]*\]\s*)?(?:private |noncomputable |omit .* in )*(theorem|lemma|def|instance|example|structure|abbrev)\b\s*([^\s:({\[]*)',ls[i])
        if m: return (m.group(1)+'@%d'%(i+1)) if m.group(1)=='example' else (m.group(2) or m.group(1))
    return '?'
OPS=[(r'(?<![<=≤-])<(?![<=-])','≤'),(r'≤','<'),(r'(?<![=|-])>(?![>=])','≥'),(r'≥','>'),(r'(?<= )\+ 1\b','+ 2'),(r' \+ 1\b(?!\d)',''),(r' - 1\b',''),
 (r'\btrue\b','false'),(r'\bfalse\b','true'),(r'&&','||'),(r'\|\|','&&'),(r'∧','∨'),(r'∨','∧'),(r'\bmin\b','max'),(r'\bmax\b','min'),
 (r'\bdrop\b','take'),(r'\btake\b','drop'),(r'≠','='),(r'(?<=if )!',''),(r'(?<= )\b0\b(?= |\)|$)','1'),(r'(?<= )\b1\b(?= |\)|$)','0'),(r'(?<= )\b2\b(?= |\)|$)','3'),
 (r' \+ ',' - '),(r' - ',' + '),(r'\.eof\b','.unexpectedEOF'),(r'\.head\?','.getLast?'),(r'\.reverse\b',''),(r'if (?!h )','if ¬ ')]
def sites(txt):
    # blank out comments
    clean=re.sub(r'/-.*?-/',lambda m:re.sub(r'[^\n]',' ',m.group(0)),txt,flags=re.S)
    clean=re.sub(r'--[^\n]*',lambda m:' '*len(m.group(0)),clean)
    clean=re.sub(r'"[^"\n]*"',lambda m:' '*len(m.group(0)),clean)
    out=[]
    lines=clean.split('\n'); pos=0; cur=None; inst=False
    for ln,l in enumerate(lines):
        m=re.match(r'(?:noncomputable |private |@\[.*\] )*(def|abbrev|inductive|structure|theorem|instance|variable|open|namespace|end|section|import|termination_by|decreasing_by|omit|include)\b\s*(\S*)',l)
        if m: cur=(m.group(1),m.group(2)); 
        body=cur and cur[0] in('def','inductive','abbrev')
        if body:
            start=0
            if m and ':=' in l: start=l.index(':=')+2
            elif m: start=len(l) 
            if '(h' in l[:4]: pass
            for pat,rep in OPS:
                for x in re.finditer(pat,l):
                    if x.start()>=start: out.append((pos+x.start(),pos+x.end(),rep,cur[1],ln+1))
        pos+=len(l)+1
    return out
def sync(a,b): shutil.rmtree(b,ignore_errors=True); subprocess.run(['cp','-a',a,b],check=True)
def main():
    seed=int(sys.argv[1]); cnt=int(sys.argv[2]); sub=sys.argv[3] if len(sys.argv)>3 else ''
    os.makedirs('/tmp/sweep',exist_ok=True)
    sync(SRC,BASE); sync(BASE,DST)
    rnd=random.Random(seed)
    allm=[]
    for f in sorted(os.listdir(BASE+'/Verif/Model')):
        if sub and sub not in f: continue
        if f in('StopWords.lean',): continue
        txt=open(f'{BASE}/Verif/Model/{f}').read()
        bydef={}
        for s in sites(txt): bydef.setdefault(s[3],[]).append(s)
        for d,ss in bydef.items(): allm.append((f,d,ss))
    rnd.shuffle(allm)
    done=set()
    if os.path.exists('/tmp/sweep/results.jsonl'):
        for l in open('/tmp/sweep/results.jsonl'):
            r=json.loads(l); done.add((r['file'],r['start'],r['new']))
    n=0
    for f,d,ss in allm:
        if n>=cnt: break
        s=rnd.choice(ss)
        if (f,s[0],s[2]) in done: continue
        n+=1
        txt=open(f'{BASE}/Verif/Model/{f}').read()
        new=txt[:s[0]]+s[2]+txt[s[1]:]
        p=f'{DST}/Verif/Model/{f}'
        open(p,'w').write(new)
        t0=time.time()
        pr=subprocess.Popen(['timeout','2400','taskset','-c','2,3','nice','lake','build'],cwd=DST,stdout=subprocess.PIPE,stderr=subprocess.STDOUT,text=True,start_new_session=True)
        status='SURVIVED'; failed=[]
        for l in pr.stdout:
            x=re.match(r'error: (Verif/\S+\.lean):(\d+):',l)
            if x:
                if x.group(1).startswith('Verif/Model/'): status='INVALID'
                else:
                    status='CAUGHT'; failed.append(thm_at(f'{DST}/{x.group(1)}',int(x.group(2))))
                os.killpg(pr.pid,signal.SIGKILL); break
            if 'Killed' in l or 'exited with code 137' in l: status='OOM'
        rc=pr.wait()
        if status=='SURVIVED' and rc!=0: status='ERROR%d'%rc
        ol=txt.split('\n')[s[4]-1]; nl=new.split('\n')[s[4]-1]
        rec=dict(file=f,definition=d,line=s[4],start=s[0],new=s[2],old_line=ol.strip(),new_line=nl.strip(),status=status,failed=failed,secs=int(time.time()-t0))
        open('/tmp/sweep/results.jsonl','a').write(json.dumps(rec,ensure_ascii=False)+'\n')
        time.sleep(1)
        sync(BASE,DST)
main()
