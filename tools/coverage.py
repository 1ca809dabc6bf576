#!/usr/bin/env python3
"""Which lines of /repo the definitions of the model cite: writes the section Coverage of DESIGN.md."""
import os,re,glob
here=os.path.dirname(os.path.dirname(os.path.abspath(__file__)))
files=[]
SKIP=('include/pinocchio/bindings','include/pinocchio/codegen','include/pinocchio/autodiff','include/pinocchio/context','include/pinocchio/visualizers','src/visualizers','src/algorithm')
for top in ('include','src'):
    for r,_,fs in os.walk('/repo/'+top):
        files+=[os.path.join(r,f)[6:] for f in fs if f.endswith(('.hpp','.hxx','.cpp','.h')) and not r[6:].startswith(SKIP)]
byname={}
for f in files: byname.setdefault(os.path.basename(f),[]).append(f)
def short(f): return f.replace('include/pinocchio/','')
PREFER={'':('multibody/geometry.hxx','multibody/geometry.hpp','multibody/model.hpp','multibody/model.hxx','multibody/data.hpp','algorithm/aba.hpp','collision/broadphase-manager.hpp','collision/broadphase.hpp','multibody/frame.hpp','spatial/inertia.hpp')}
cited={}; users={}
pat=re.compile(r'((?:[\w.-]+/)*[\w.-]+\.(?:hpp|hxx|cpp|h)):(\d+(?:-\d+)?(?:,\s+\d+(?:-\d+)?)*)')
for p in sorted(glob.glob(here+'/lean/Verif/**/*.lean',recursive=True)):
    s=open(p).read()
    rel=p[len(here)+12:-5]
    for c in re.finditer(r'/--(.*?)-/',s,re.S):
        for m in pat.finditer(c.group(1)):
            cand=[f for f in byname.get(os.path.basename(m.group(1)),[]) if f.endswith('/'+m.group(1)) or f==m.group(1)]
            if len(cand)>1:
                pr=[f for f in cand if short(f) in PREFER.get(rel,())+PREFER['']]
                if len(pr)!=1: print('ambiguous',rel,m.group(0),cand)
                cand=pr[:1]
            for f in cand:
                for ab in re.split(r',\s+',m.group(2)):
                    a,_,b=ab.partition('-')
                    cited.setdefault(f,set()).update(range(int(a),int(b or a)+1))
                users.setdefault(f,set()).add(rel)
def lines(f):
    n=set()
    for i,l in enumerate(open('/repo/'+f,errors='replace'),1):
        l=l.strip()
        if l and not l.startswith(('//','*','/*','#','{','}','typedef','using','template','EIGEN_MAKE')): n.add(i)
    return n
rows=[]; rest={}
for f in sorted(files):
    L=lines(f)
    if f in cited:
        k=len(L&cited[f]); rows.append('| `%s` | %d of %d | %s |'%(short(f),k,len(L),', '.join('`%s`'%u for u in sorted(users[f]) if not u.startswith(('Props','Spec'))) or ', '.join('`%s`'%u for u in sorted(users[f]))))
    else: rest.setdefault(os.path.dirname(short(f)) or '.',[]).append((os.path.basename(f),len(L)))
out=['## Coverage','',
 'Generated by `tools/coverage.py` from the citations in the comments of the model. A line of code counts when it lies in a',
 'cited range (comments, preprocessor lines, `template`, `typedef` and lone braces are left out of the totals).','',
 '| file of the repository (below `include/pinocchio`) | lines modelled | modules |','|---|---|---|']+rows
out+=['','Files with no line modelled, with their numbers of lines (`bindings`, `codegen`, `autodiff`, `context`, `visualizers`, and the explicit instantiations, are not modelled either and not listed):','']
for d in sorted(rest): out.append('* `%s`: %s'%(d,', '.join('`%s` %d'%x for x in rest[d])))
p=here+'/DESIGN.md'; t=open(p).read()
sec='\n'.join(out)+'\n\n'
if '## Coverage' in t: t=re.sub(r'## Coverage\n.*?(?=## Findings)',lambda m:sec,t,flags=re.S)
else: t=t.replace('## Findings',sec+'## Findings',1)
open(p,'w').write(t)
print(len(rows),sum(len(v) for v in rest.values()))
