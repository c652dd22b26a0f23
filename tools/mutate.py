#!/usr/bin/env python3
"""Seeded-bug runner. Reads a JSON list of {def,file,old,new,claim} and, for each, edits a scratch copy of lean/ (outside
/verif), rebuilds, and appends a line to seeded/LOG.jsonl with the theorems that failed."""
import json,sys,os,re,subprocess,shutil
SC='/tmp/mut/lean'
SRC=os.environ.get('MUTSRC','/verif/lean')
def main():
    muts=json.load(open(sys.argv[1])); out=[]
    for m in muts:
        subprocess.run(['mkdir','-p','/tmp/mut']); subprocess.run(['rsync','-a','--delete',SRC+'/',SC+'/'],check=True) if shutil.which('rsync') else (shutil.rmtree(SC,ignore_errors=True), shutil.copytree(SRC,SC,symlinks=True))
        p=f"{SC}/Verif/{m['file']}"; s=open(p).read()
        assert s.count(m['old'])>=1,('not found',m)
        s=s.replace(m['old'],m['new'],1); open(p,'w').write(s)
        r=subprocess.run(['lake','build'],cwd=SC,capture_output=True,text=True)
        failed=[]
        for f,l in re.findall(r'error: (Verif/\S+\.lean):(\d+):\d+',r.stdout+r.stderr):
            lines=open(f'{SC}/{f}').read().split('\n'); i=int(l)-1
            name='?'
            while i>=0:
                mm=re.match(r'\s*(?:@\[.*\]\s*)?(?:private |protected )*(theorem|lemma|def|example|instance)\s*([^\s:({\[]*)',lines[i])
                if mm: name=(mm.group(2) or mm.group(1)); break
                i-=1
            t=f"{f[6:]}:{name}"
            if t not in failed: failed.append(t)
        blocked=re.findall(r'^- (Verif\.\S+)',r.stdout+r.stderr,re.M)
        rec={"definition":m['def'],"edit":m.get('edit',f"{m['old']}  ->  {m['new']}"),"claim":m['claim'],"failed":failed,"tightened":m.get('tightened',[])}
        print(m['def'],'|',m['claim'],'->',failed or 'NOTHING FAILED',flush=True)
        with open('/verif/seeded/LOG.jsonl','a') as fh: fh.write(json.dumps(rec)+'\n')
main()
