#!/usr/bin/env python3
# Regenerates /verif/MANIFEST.json from tools/claims.txt: "Cxx|status|thm, thm|note" per line.
import json,os
d=os.path.dirname(os.path.abspath(__file__))
cl=[]
for l in open(d+'/claims.txt'):
    l=l.rstrip('\n')
    if not l or l.startswith('#'): continue
    a,b,c,n=l.split('|',3)
    cl.append({"property":a.strip(),"status":b.strip(),"theorems":[x.strip() for x in c.split(',') if x.strip()],"note":n.strip()})
json.dump({"claims":cl},open(d+'/../MANIFEST.json','w'),indent=1)
