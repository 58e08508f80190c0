# list each citation in the model next to the first cited source line
import re,os,glob
src={}
for p in glob.glob('/repo/**/*.go',recursive=True): src.setdefault(os.path.basename(p),[]).append(p)
for f in sorted(glob.glob('/verif/lean/Verif/Model/**/*.lean',recursive=True)):
    L=open(f).read().split('\n')
    for i,l in enumerate(L):
        for m in re.finditer(r'([A-Za-z_0-9/]+\.go):(\d+)(?:-(\d+))?',l):
            b=os.path.basename(m[1]); c=src.get(b)
            if not c: print('NOFILE',f,i+1,m[0]); continue
            d=next((L[j] for j in range(i,min(i+12,len(L))) if re.match(r'\s*(def|structure|inductive|abbrev|theorem)',L[j])),'')[:60]
            for p in c:
                s=open(p).read().split('\n'); a=int(m[2]); e=int(m[3] or a)
                first=s[a-1].strip()[:60] if a<=len(s) else 'OUT'
                last=s[e-1].strip()[:30] if e<=len(s) else 'OUT'
                print(f"{f[24:]}:{i+1} {m[0]} | {d.strip()} | {first} ... {last}")
