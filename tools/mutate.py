#!/usr/bin/env python3
"""Mutation harness.  Usage: mutate.py MUTANTS.py [LOG]
MUTANTS.py defines M = [(id, file, definition, old, new, claim, edit)], files relative to lean/Verif.
Works in a scratch copy (/tmp/mut); /verif is only read, except for the log line."""
import sys, re, json, subprocess, os, time, shutil
PRI='/tmp/pristine/lean'; MUT='/tmp/mut/lean'
LOG=sys.argv[2] if len(sys.argv)>2 else '/verif/seeded/LOG.jsonl'
ns={}; exec(open(sys.argv[1]).read(),ns)
done=set()
if os.path.exists(LOG):
    for l in open(LOG):
        try: done.add(json.loads(l)['id'])
        except Exception: pass
def sync():
    os.makedirs(MUT,exist_ok=True)
    subprocess.run(['rm','-rf',MUT],check=True); subprocess.run(['cp','-a',PRI,MUT],check=True)
def encl(path,line):
    ls=open(path).read().split('\n'); nsn=[]
    name=None
    for i,l in enumerate(ls[:line]):
        m=re.match(r'\s*(?:@\[[^\]]*\]\s*)?(?:private |protected |noncomputable )*(theorem|lemma|def|example|instance|structure|inductive|abbrev)\b\s*(\S*)',l)
        if m: name=(m.group(1)+' ' if m.group(1) not in('theorem','lemma') else '')+m.group(2)
    return name
for (mid,f,d,old,new,claim,edit) in ns['M']:
    if mid in done: continue
    sync()
    p=MUT+'/Verif/'+f; s=open(p).read()
    c=s.count(old)
    if c!=1:
        print('BADEDIT',mid,c,flush=True); continue
    open(p,'w').write(s.replace(old,new))
    t=time.time()
    # first the modules of the claims named, then, if they still build, everything
    ids=set(re.findall(r'C\d\d',claim))
    first=['Verif.Props.'+n[:-5] for n in sorted(os.listdir(MUT+'/Verif/Props')) if n[:3] in ids]
    out=''
    for tg in ([first] if first else [])+[[]]:
        try:
            r=subprocess.run(['lake','build']+tg,cwd=MUT,capture_output=True,text=True,timeout=2400)
            out=r.stdout+r.stderr
        except subprocess.TimeoutExpired as e:
            out=(e.stdout or b'').decode() if isinstance(e.stdout,bytes) else (e.stdout or '')
        if re.search(r'^error: Verif/',out,re.M): break
    fails=[]
    for m in re.finditer(r'^error: (Verif/\S+?\.lean):(\d+):',out,re.M):
        n=encl(MUT+'/'+m.group(1),int(m.group(2)))
        n=m.group(1)[6:-5]+': '+str(n)
        if n not in fails: fails.append(n)
    st='caught' if fails else ('SURVIVED' if 'Build completed' in out else 'ODD')
    print(st,mid,len(fails),int(time.time()-t),flush=True)
    rec=dict(id=mid,definition=d,edit=edit,claim=claim,result='caught' if fails else 'survived',theorems_failed=fails[:25],theorems_tightened=[])
    if st!='ODD':
        open(LOG,'a').write(json.dumps(rec,ensure_ascii=False)+'\n')
    else: print(out[-500:],flush=True)
