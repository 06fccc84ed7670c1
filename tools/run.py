import sys,os,re,json,subprocess,shutil,time
name=sys.argv[1]; sel=[int(x) for x in sys.argv[2:]]
ns={}; exec(open(f'/tmp/w/mut/{name}.py').read(),ns); M=ns['M']
deps={}
for l in open('/tmp/w/mut/deps.txt'):
    if '\t' not in l: continue
    a,b=l.rstrip('\n').split('\t'); deps[a]=set(b.split())
out=open(f'/tmp/w/mut/{name}.out','a')
def declmap(path):
    ls=open(path).read().split('\n'); res=[]; ns=[]
    cur=None; r={}
    for i,l in enumerate(ls,1):
        mm=re.match(r'\s*namespace\s+(\S+)',l)
        if mm: ns.append(mm.group(1))
        mm=re.match(r'\s*end\s+(\S+)',l)
        if mm and ns and ns[-1]==mm.group(1): ns.pop()
        mm=re.match(r'\s*(?:@\[[^\]]*\]\s*)?(?:private |protected |noncomputable |local )*(theorem|lemma|def|abbrev|instance|structure|inductive|example|class)\s+(\S+)?',l)
        if mm:
            cur='.'.join(ns+[mm.group(2) if mm.group(1) not in('example',) and mm.group(2) else 'example@%d'%i])
        r[i]=cur
    return r
for idx,mu in enumerate(M):
    if sel and idx not in sel: continue
    D='/tmp/mut/lean'
    shutil.rmtree('/tmp/mut',ignore_errors=True); os.makedirs('/tmp/mut')
    subprocess.run(['cp','-rp',os.environ.get('MUTBASE','/verif/lean'),D])
    p=f'{D}/{mu["file"]}'; s=open(p).read()
    if s.count(mu['old'])!=1:
        out.write(json.dumps(dict(idx=idx,bad='count %d'%s.count(mu['old']),defn=mu['defn']))+'\n'); out.flush(); continue
    open(p,'w').write(s.replace(mu['old'],mu['new']))
    t=time.time()
    r=subprocess.run('lake build 2>&1',shell=True,cwd=D,capture_output=True,text=True).stdout
    errs=[]; 
    for mm in re.finditer(r'^error: (Verif/\S+?\.lean):(\d+):\d+:',r,re.M):
        f,ln=mm.group(1),int(mm.group(2)); d=declmap(f'{D}/{f}').get(ln)
        if d and d not in errs: errs.append(d)
    failed=sorted(n.replace('Verif.Props.','') for n,ds in deps.items() if re.match(r'Verif\.Props\.c\d',n) and (ds & set(errs)))
    hit=sorted({'C'+re.match(r'c(\d+)',n).group(1) for n in failed})
    miss=[q for q in mu['props'] if q not in hit]
    out.write(json.dumps(dict(idx=idx,defn=mu['defn'],edit=f"{mu['old']}  =>  {mu['new']}",claim=mu['claim'],props=mu['props'],errs=errs,failed=failed,miss=miss,sec=round(time.time()-t)))+'\n'); out.flush()
