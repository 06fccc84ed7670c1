import json,sys
# usage: mklog.py NAME notes.json ; appends to LOG
name=sys.argv[1]; notes=json.load(open(sys.argv[2])) if len(sys.argv)>2 else {}
out=open('/verif/seeded/LOG.jsonl','a'); n=0
last={}
for l in open(f'/tmp/w/mut/{name}.out'):
    d=json.loads(l); last[d['idx']]=d
for i in sorted(last):
    d=last[i]
    if 'bad' in d: continue
    k=str(i); nt=notes.get(k,{})
    if nt.get('skip'): continue
    rec=dict(definition=d['defn'],edit=d['edit'],claim_broken=nt.get('claim',d['claim']),
             first_failures=d['errs'][:8],theorems_failed=d['failed'],theorems_tightened=nt.get('tightened',[]))
    if 'note' in nt: rec['note']=nt['note']
    out.write(json.dumps(rec,ensure_ascii=False)+'\n'); n+=1
print(n)
