#!/usr/bin/env python3
"""Seeded wrong programs.  Usage: mutate.py LIST.py [first [last]]
LIST.py defines `muts`, a list of (file, definition, old, new, claim) with file relative to lean/Verif.
Each edit is applied to a scratch copy (/tmp/mut), the project is rebuilt there and the outcome is appended to
/verif/seeded/LOG.jsonl."""
import json, os, re, subprocess, sys, shutil
SRC='/verif/lean'; DST=os.environ.get('MUTDST','/tmp/mut'); LOG='/verif/seeded/LOG.jsonl'
def sync():
    subprocess.run(['rsync','-a','--delete','--exclude','.lake',SRC+'/',DST+'/'],check=True) if shutil.which('rsync') else \
      subprocess.run('cd %s && cp -r Verif Verif.lean lakefile.toml %s/'%(SRC,DST),shell=True,check=True)
def decl_at(path,line):
    ls=open(path).read().split('\n'); i=min(line,len(ls))-1
    while i>=0:
        m=re.match(r'\s*(?:@\[.*\]\s*)?(?:private\s+|protected\s+)*(theorem|lemma|def|example|instance)\s*(\S+)?',ls[i])
        if m: return (m.group(2) or '') if m.group(1) not in('example',) else 'example:%d'%(i+1)
        i-=1
    return '?'
def main():
    ns={}; exec(open(sys.argv[1]).read(),ns); muts=ns['muts']
    a=int(sys.argv[2]) if len(sys.argv)>2 else 0; b=int(sys.argv[3]) if len(sys.argv)>3 else len(muts)
    for k in range(a,b):
        f,d,old,new,claim=muts[k]; p=DST+'/Verif/'+f
        src=open(SRC+'/Verif/'+f).read()
        # locate the definition, then the first occurrence of old after it
        i=src.find('def '+d); 
        if i<0: i=src.find('structure '+d)
        if i<0: i=src.find('inductive '+d)
        j=src.find(old,i) if i>=0 else -1
        if j<0: print(k,'NOT FOUND',d,repr(old)); continue
        shutil.copy(SRC+'/Verif/'+f,p)
        mod=src[:j]+new+src[j+len(old):]
        open(p,'w').write(mod)
        # first the modules next to the edit, the whole project only if they still build
        first=ns.get('first',{}).get(f,'')
        r=subprocess.run('timeout 3000 lake build %s 2>&1'%first,shell=True,cwd=DST,capture_output=True,text=True)
        if first and r.returncode==0: r=subprocess.run('timeout 3000 lake build 2>&1',shell=True,cwd=DST,capture_output=True,text=True)
        errs=re.findall(r'^error: (Verif/\S+?\.lean):(\d+):\d+',r.stdout,re.M)
        names=[]; 
        for (ff,l) in errs:
            n=os.path.basename(ff)[:-5]+': '+decl_at(DST+'/'+ff,int(l))
            if n not in names: names.append(n)
        failedmods=re.findall(r'^- (Verif\S*)',r.stdout,re.M)
        open(p,'w').write(src)
        compiled = not any(ff=='Verif/'+f for ff,_ in errs)
        rec=dict(definition=f+' '+d,edit=old.strip()+'  ==>  '+new.strip(),claim=claim,
                 theorems_failed=names, modules_failed=failedmods, result='survived' if r.returncode==0 else ('caught' if compiled else 'edit does not compile'),theorems_tightened=[])
        print(k,rec['result'],d,names[:4],flush=True)
        open(LOG,'a').write(json.dumps(rec,ensure_ascii=False)+'\n')
main()
