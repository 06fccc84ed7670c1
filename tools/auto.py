import re,random,glob,json,os,sys,subprocess,shutil,time,signal
seed=int(sys.argv[1]); N=int(sys.argv[2]); OUT=f'/tmp/w/mut/auto{seed}.out'
random.seed(seed)
BASE='/tmp/mutbase/lean'
OPS=[(r' < ',' ≤ '),(r' ≤ ',' < '),(r' > ',' ≥ '),(r' \+ ',' - '),(r' - ',' + '),(r' \* ',' + '),(r'\.1\b','.2'),(r'\.2\b','.1'),
     (r'(?<![\w.])0(?![\w.])','1'),(r'(?<![\w.])1(?![\w.])','2'),(r'\btrue\b','false'),(r'\bfalse\b','true'),(r' && ',' || '),(r' \|\| ',' && '),
     (r'\bmin\b','max'),(r'\bmax\b','min'),(r' = ',' ≠ '),(r' ≠ ',' = '),(r' ∧ ',' ∨ '),(r' ∨ ',' ∧ '),(r'\bpyDiv (\S+|\([^()]*\)) (\S+|\([^()]*\))',r'pyDiv \2 \1'),
     (r'\.fst\b','.snd'),(r'\bsource\b','target'),(r'\.filter \(?fun',None),(r'\bnone\b',None),(r'\.reverse\b',''),(r'\.dedup\b',''),(r'if (.+?) then',r'if ¬ (\1) then'),
     (r'\.take\b','.drop'),(r'\.length\b','.length + 1'),(r'a = b','a ≤ b')]
OPS=[o for o in OPS if o[1] is not None]
cands=[]
for f in sorted(glob.glob(BASE+'/Verif/Model/*.lean')):
    s=open(f).read()
    # split into decls
    idx=[m.start() for m in re.finditer(r'^(?:/--|(?:noncomputable |private )*(?:def|abbrev|structure|inductive|instance|theorem|namespace|section|end|variable|open))',s,re.M)]+[len(s)]
    for a,b in zip(idx,idx[1:]):
        blk=s[a:b]
        m=re.match(r'(?:noncomputable |private )*def ([\w.\'?]+)',blk)
        if not m: continue
        i=blk.find(':=')
        if i<0: i=blk.find('|')
        if i<0: continue
        ms=[]
        for o,n in OPS:
            for mm in re.finditer(o,blk[i+2:]):
                if '--' in blk[i+2:][max(0,blk[i+2:].rfind('\n',0,mm.start())):mm.start()]: continue
                new=mm.expand(n) if '\\' in n else n
                ms.append((a+i+2+mm.start(),a+i+2+mm.end(),new,mm.group(0)))
        if ms: cands.append((f,m.group(1),ms))
print(len(cands),sum(len(c[2]) for c in cands))
if N==0: sys.exit()
order=list(range(len(cands))); random.shuffle(order)
done=0; k=0
out=open(OUT,'a')
D='/tmp/muta/lean'
while done<N:
    f,d,ms=cands[order[k%len(order)]]; k+=1
    a,b,new,old=random.choice(ms)
    shutil.rmtree('/tmp/muta',ignore_errors=True); os.makedirs('/tmp/muta'); subprocess.run(['cp','-rp',BASE,D])
    p=f.replace(BASE,D); s=open(p).read()
    open(p,'w').write(s[:a]+new+s[b:])
    ls=s.rfind('\n',0,a)+1; le=s.find('\n',b); 
    ctx=s[ls:le].strip(); nctx=(s[ls:a]+new+s[b:le]).strip()
    t=time.time()
    pr=subprocess.Popen('nice -n 10 lake build 2>&1',shell=True,cwd=D,stdout=subprocess.PIPE,text=True,preexec_fn=os.setsid)
    res='survived'; first=None
    for line in pr.stdout:
        m=re.match(r'error: (Verif/\S+?\.lean):(\d+):',line)
        if m:
            first=m.group(1)+':'+m.group(2)
            res='invalid' if m.group(1).startswith('Verif/Model') else 'killed'
            os.killpg(pr.pid,signal.SIGTERM); break
    pr.wait()
    if res!='invalid': done+=1
    out.write(json.dumps(dict(defn=d,file=os.path.basename(f),old=ctx,new=nctx,res=res,first=first,sec=round(time.time()-t)),ensure_ascii=False)+'\n'); out.flush()
