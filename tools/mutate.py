import subprocess, shutil, os, re, json, sys, time
SRC='/tmp/mut/src'; W='/tmp/mut/lean'
def sync():
    shutil.rmtree(W,ignore_errors=True); subprocess.run(['cp','-a',SRC,W],check=True)
def decl_at(path,line):
    ls=open(path).read().split('\n')
    for i in range(min(line,len(ls))-1,-1,-1):
        m=re.match(r'(?:@\[[^\]]*\]\s*)?(?:private\s+|protected\s+)?(theorem|def|example|instance|structure|inductive|abbrev)\s*([\w\.«»]*)',ls[i])
        if m: return (m.group(2) or 'example@%d'%(i+1))
    return '?'
def run(m):
    sync()
    p=W+'/Verif/Model/'+m['file']+'.lean'
    s=open(p).read()
    n=s.count(m['old'])
    if n!=1 and not m.get('nth'): return {'error':'old occurs %d times'%n}
    if m.get('nth'):
        parts=s.split(m['old']); k=m['nth']
        s=m['old'].join(parts[:k])+m['new']+m['old'].join(parts[k:])
    else: s=s.replace(m['old'],m['new'])
    open(p,'w').write(s)
    t=time.time()
    r=subprocess.run(['timeout','1500','lake','build'],cwd=W,capture_output=True,text=True)
    out=r.stdout+r.stderr
    fails=[]
    for mm in re.finditer(r'error: (Verif/\S+\.lean):(\d+):',out):
        d=decl_at(W+'/'+mm.group(1),int(mm.group(2)))
        if d not in fails: fails.append(d)
    return {'ok':r.returncode==0,'failed':fails,'secs':round(time.time()-t)}
if __name__=='__main__':
    muts=json.load(open(sys.argv[1])); res=sys.argv[2]
    done=set(json.loads(l)['id'] for l in open(res)) if os.path.exists(res) else set()
    for m in muts:
        if m['id'] in done: continue
        r=run(m); r['id']=m['id']
        open(res,'a').write(json.dumps({**m,'res':r})+'\n')
        print(m['id'],r.get('error') or ('SURVIVED' if r['ok'] else 'killed'),r.get('failed',[])[:6],r.get('secs'),flush=True)
