#!/usr/bin/env python3
"""Apply each edit of a spec file to a scratch copy of /verif/lean, rebuild, log which declarations fail.
usage: mutate.py spec.json   (list of {def, file, old, new, claim, [tightened]})"""
import json,sys,subprocess,re,os,shutil,threading,time,signal
spec=json.load(open(sys.argv[1])); log='/verif/seeded/LOG.jsonl'
W=os.environ.get('MUTDIR','/tmp/mut'); SRC=os.environ.get('MUTSRC','/verif/lean')
def sync():
    subprocess.run(['rsync','-a','--delete','--exclude','.lake',SRC+'/',W+'/'],check=True) if shutil.which('rsync') else None
if not os.path.exists(W):
    subprocess.run(['cp','-r',SRC,W],check=True)
else:
    subprocess.run(f'find {W}/Verif -name "*.lean" -delete; cp -r {SRC}/Verif {SRC}/Verif.lean {W}/',shell=True,check=True)
GRACE=float(os.environ.get('GRACE','0'))  # seconds to go on after the first failure; 0: to the end
def build():
    if not GRACE:
        p=subprocess.run(['lake','build'],cwd=W,capture_output=True,text=True)
        return p.returncode,p.stdout+p.stderr
    p=subprocess.Popen(['lake','build'],cwd=W,stdout=subprocess.PIPE,stderr=subprocess.STDOUT,text=True,start_new_session=True)
    out=[]; stop=None
    def read():
        for l in p.stdout: out.append(l)
    th=threading.Thread(target=read,daemon=True); th.start()
    while p.poll() is None:
        time.sleep(0.5)
        if stop is None and any(l.startswith('error: ') for l in out): stop=time.time()+GRACE
        if stop and time.time()>stop:
            os.killpg(p.pid,signal.SIGKILL); p.wait(); th.join(2); return 1,''.join(out)
    th.join(5)
    return p.returncode,''.join(out)
if os.environ.get('NOCONF'):  # theorems only: leave the test corpus out
    v=open(W+'/Verif.lean').read()
    open(W+'/Verif.lean','w').write('\n'.join(l for l in v.splitlines() if 'Conformance' not in l)+'\n')
rc,out=build()
if rc!=0: print(out[-3000:]); sys.exit('base does not build')
def declat(f,line):
    name=None
    for i,l in enumerate(open(os.path.join(W,f)),1):
        if i>line: break
        m=re.match(r'(?:@\[[^\]]*\]\s*)?(?:private |protected )?(theorem|lemma|def|example|instance|structure|inductive)\b\s*(\S*)',l)
        if m: name=(m.group(2) if m.group(1)!='example' else 'example')
    return name
for m in spec:
    f=os.path.join(W,m['file']); src=open(f).read()
    if src.count(m['old'])<1: print('NOT FOUND',m['def'],m['old']); continue
    open(f,'w').write(src.replace(m['old'],m['new'],1))
    rc,out=build()
    fails=[]
    for l in out.splitlines():
        k=re.match(r'error: \.?/?(Verif/\S+?\.lean):(\d+):',l) 
        if k:
            d=f"{k.group(1)[6:-5]}:{declat(k.group(1),int(k.group(2)))}"
            if d not in fails: fails.append(d)
    open(f,'w').write(src)
    rec=dict(definition=m['def'],edit=m['old']+'  =>  '+m['new'],claim=m['claim'],failed=fails,tightened=m.get('tightened',[]))
    if rc==0: rec['result']='SURVIVED'
    print(('ok  ' if rc else 'SURVIVED '),m['def'],'|',m['claim'],'|',fails[:6],flush=True)
    open(log,'a').write(json.dumps(rec)+'\n')
