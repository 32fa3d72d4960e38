#!/usr/bin/env python3
"""Writes DESIGN.md."""
import json, os, re, subprocess, glob
H=os.path.dirname(os.path.dirname(os.path.abspath(__file__)))
os.chdir(H)
exec(open('tools/how.py').read())
props=[json.loads(l) for l in open('properties.jsonl')]
M={c['property']:c for c in json.load(open('MANIFEST.json'))['claims']}
out=open('tools/design_head.md').read()
for d in props:
    c=M[d['id']]
    out+="### %s %s (%s)\n\n%s\n\n*Over:* %s.  *Model and proof:* %s.\n\n"%(d['id'],d['title'],c['status'],d['statement'],d['quantifier'].rstrip('.'),how[d['id']])
    out+="*Theorems:* "+", ".join("`%s`"%t.replace('Xoscar.','') for t in c['theorems'])+".\n"
    if c['note']: out+="\n*Note:* "+c['note']+"\n"
    out+="\n"
# axioms
names=[]
for d in props:
    for t in M[d['id']]['theorems']:
        if t not in names: names.append(t)
src="import Verif\n"+"".join("#print axioms %s\n"%n for n in names)
open('/tmp/ax.lean','w').write(src)
r=subprocess.run(['lake','env','lean','/tmp/ax.lean'],cwd='lean',capture_output=True,text=True)
txt=re.sub(r'\n\s+',' ',r.stdout)
g={}
for l in txt.split('\n'):
    m=re.match(r"'(\S+)' depends on axioms: \[(.*)\]",l)
    if m: g.setdefault(', '.join(sorted(x.strip() for x in m[2].split(','))),[]).append(m[1])
    else:
        m=re.match(r"'(\S+)' does not depend on any axioms",l)
        if m: g.setdefault('none',[]).append(m[1])
n=sum(len(v) for v in g.values())
assert n==len(names),(n,len(names),r.stdout[-500:],r.stderr[-500:])
out+="## Axioms\n\nOutput of `#print axioms` for the %d claimed theorems.\n\n"%n
for k in sorted(g):
    out+="* **%s**: "%k+", ".join("`%s`"%x.replace('Xoscar.','') for x in sorted(g[k]))+"\n"
imp=set()
for f in glob.glob('lean/Verif/**/*.lean',recursive=True):
    for l in open(f):
        m=re.match(r'import (\S+)',l)
        if m and not m[1].startswith('Verif'): imp.add(m[1])
out+="\n## Imports from outside\n\n"+(", ".join("`%s`"%x for x in sorted(imp)) or "none")+"\n"
open('DESIGN.md','w').write(out)
