#!/usr/bin/env python3
"""Write MANIFEST.json. CLAIMS: property -> (status, note, [theorems]); properties without an entry are listed as partial with no theorem yet."""
import json,os
here=os.path.dirname(os.path.abspath(__file__))
ids=[json.loads(l)['id'] for l in open(here+'/../properties.jsonl')]
C={}
exec(open(here+'/claims.py').read())
out=[]
for i in ids:
    if i in C:
        s,n,t=C[i]; out.append(dict(property=i,status=s,theorems=["SB."+x for x in t],note=n))
json.dump({"claims":out},open(here+'/../MANIFEST.json','w'),indent=1,ensure_ascii=False)
print(len(out),'claims of',len(ids))
