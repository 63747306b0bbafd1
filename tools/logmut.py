import json,os
src='/tmp/mut/results.jsonl'
out=open('/verif/seeded/LOG.jsonl','a')
n=0
for l in open(src):
    r=json.loads(l)
    if r['failed_modules'] and not r['theorems_failed']: continue
    out.write(json.dumps(r,ensure_ascii=False)+'\n'); n+=1
os.remove(src); print(n,'logged')
