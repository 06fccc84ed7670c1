set -e
rm -rf /tmp/mutbase; mkdir -p /tmp/mutbase; cp -rp /verif/lean /tmp/mutbase/lean
cd /tmp/mutbase/lean
python3 - <<'P'
import glob,re
for f in glob.glob('Verif/**/*.lean',recursive=True):
    L=open(f).read().split('\n'); out=[]; i=0
    while i<len(L):
        if re.match(r'example\b',L[i]):
            # drop preceding docstring
            while out and (re.match(r'open .* in$',out[-1])): out.pop()
            j=len(out)-1
            if j>=0 and out[j].rstrip().endswith('-/'):
                while j>=0 and not out[j].startswith('/--'): j-=1
                out=out[:j]
                while out and (re.match(r'open .* in$',out[-1])): out.pop()
            i+=1
            while i<len(L) and (L[i]=='' or L[i][0] in ' \t·' ): 
                i+=1
            out.append('')
        else:
            out.append(L[i]); i+=1
    open(f,'w').write('\n'.join(out))
P
lake build 2>&1 | grep -A8 error: || true
cd /verif/lean && lake env lean /tmp/w/mut/deps.lean > /tmp/w/mut/deps.txt
