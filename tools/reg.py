#!/usr/bin/env python3
# usage: reg.py file.json: registers a property everywhere. keys: id title statement quantifier why anchors status theorems note row [finding] imports
import sys,json,subprocess
d=json.load(open(sys.argv[1]))
subprocess.check_call(['python3','/verif/tools/addprop.py',d['id'],d['title'],d['statement'],d['quantifier'],d['why']]+d['anchors'])
open('/verif/tools/claims.txt','a').write(f"{d['id']}|{d['status']}|{', '.join(d['theorems'])}|{d['note']}\n")
subprocess.check_call(['python3','/verif/tools/manifest.py'])
p='/verif/DESIGN.md';s=open(p).read().split('\n')
last=max(i for i,x in enumerate(s) if x.startswith('| C'))
s.insert(last+1,f"| {d['id']} | {d['row']} |")
if d.get('finding'):
    last=max(i for i,x in enumerate(s) if x.startswith('* C'))
    s.insert(last+1,f"* {d['id']} {d['finding']}")
open(p,'w').write('\n'.join(s))
p='/verif/lean/Verif.lean';s=open(p).read().rstrip('\n')
for m in d['imports']: s+=f"\nimport {m}"
open(p,'w').write(s+"\n")
