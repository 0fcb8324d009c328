#!/usr/bin/env python3
"""Write DESIGN.md: design_head.md, the violations (doc comments of the refuted theorems) and the table of properties (from properties.jsonl, claims.py, plan.py)."""
import json,os,re,glob
here=os.path.dirname(os.path.abspath(__file__))
root=here+'/..'
C={}
exec(open(here+'/claims.py').read())
HOW={}
exec(open(here+'/plan.py').read())
P=[json.loads(l) for l in open(root+'/properties.jsonl')]
out=open(here+'/design_head.md').read()
where={}
docs=[]
for f in sorted(glob.glob(root+'/lean/Verif/*/*.lean')):
    s=open(f).read()
    for m in re.finditer(r'^(?:private )?theorem (\S+)',s,re.M): where[m.group(1)]=f.split('/Verif/')[1][:-5]
    for m in re.finditer(r'/--((?:(?!-/).)*?)-/\s*(?:set_option \S+ \S+ in\s*)*theorem (C(\d\d)_[A-Za-z_]*refuted\S*|C(\d\d)_refuted\S*)',s,re.S):
        d=' '.join(m.group(1).split())
        docs.append((int(m.group(3) or m.group(4)),m.group(2),d))
for n,t,d in sorted(docs): out+='* `%s`: %s\n'%(t,re.sub(r'\*\*(?=C\d)|(?<=[a-z0-9/`])\*\*(?=[ :.,](?![^`]*`(?:[^`]*`[^`]*`)*[^`]*$))','',d))
out+='\n## 5. Properties\n\nStatus and theorems are those of MANIFEST.json. "How" is the method of proof.\n\n| id | property | status | modelled and proved how | result | theorems (file) |\n|---|---|---|---|---|---|\n'
for p in P:
    i=p['id']
    st,note,th=C[i]
    files=sorted({where.get(t,'?') for t in th})
    out+='| %s | %s | %s | %s | %s | %s (%s) |\n'%(i,p['title'],st,HOW.get(i,''),note.strip().replace('|','\\|') or 'as stated',', '.join('`%s`'%t for t in th),', '.join(files))
    if '?' in files: print('unknown file for',[t for t in th if t not in where])
    if i not in HOW: print('no plan for',i)
open(root+'/DESIGN.md','w').write(out)
