import json,re,glob,sys
# notes: id -> (status, note)
notes=json.load(open('/tmp/w/notes.json'))
ths={}
for f in sorted(glob.glob('/verif/lean/Verif/Props/*.lean')):
    ns='Verif.Props.'
    for l in open(f):
        m=re.match(r'theorem (c(\d\d+)_\w+)',l)
        if m: ths.setdefault('C'+m.group(2),[]).append(ns+m.group(1))
claims=[]
for l in open('/verif/properties.jsonl'):
    d=json.loads(l); i=d['id']
    if i in ths:
        st,n=notes.get(i,['proved',''])
        claims.append({"property":i,"status":st,"theorems":ths[i],"note":n})
json.dump({"claims":claims},open('/verif/MANIFEST.json','w'),indent=1)
print(len(claims),[c['property'] for c in claims])
