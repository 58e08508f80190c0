import os
base='/verif/lean'
mods=[]
for d,_,fs in os.walk(base+'/Verif'):
    for f in fs:
        if f.endswith('.lean'):
            mods.append(os.path.relpath(os.path.join(d,f),base)[:-5].replace('/','.'))
open(base+'/Verif.lean','w').write(''.join('import %s\n'%m for m in sorted(mods)))
