#!/usr/bin/env python3
"""Random small edits of the model, each built in a scratch copy. usage: automut.py SRC WORK N SEED OUT
An edit that does not typecheck in the model itself is discarded; otherwise the first failing declarations are logged, or SURVIVED."""
import re,sys,os,random,subprocess,shutil,json,time,glob,signal
SRC,W,N,SEED,OUT=sys.argv[1],sys.argv[2],int(sys.argv[3]),int(sys.argv[4]),sys.argv[5]
def decl_at(path,line):
    ls=open(path).read().split('\n')
    for i in range(min(line,len(ls))-1,-1,-1):
        m=re.match(r'(?:@\[[^\]]*\]\s*)?(?:private\s+|protected\s+)?(theorem|def|example|instance|structure|inductive|abbrev)\s*([\w\.«»]*)',ls[i])
        if m: return (m.group(2) or 'example@%d'%(i+1))
    return '?'
SUBS=[(r' < ',' ≤ '),(r' ≤ ',' < '),(r' = ',' ≠ '),(r' ≠ ',' = '),(r' && ',' || '),(r' ∧ ',' ∨ '),(r' ∨ ',' ∧ '),(r' \|\| ',' && '),(r'\btrue\b','false'),(r'\bfalse\b','true'),
 (r' \+ 1\b',''),(r' - 1\b',''),(r'\.take\b','.drop'),(r'\.drop\b','.take'),(r'=> some .*$','=> none'),(r'=> none$','=> some s'),(r'!(?=[a-zA-Z(])',''),(r'¬ ?',''),
 (r'\b(\d+)\b',lambda m:str(int(m.group(1))+1)),(r'\b([1-9]\d*)\b',lambda m:str(int(m.group(1))-1)),(r'(\w[\w.]*) \+\+ (\w[\w.]*)',r'\2 ++ \1'),(r' \+\+ \[[^\]]*\]',''),
 (r'\.initiator\b','.response'),(r'\.response\b','.initiator'),(r'\.end\b','.response'),(r'\.error\b','.response'),(r'\.ok \(\)','.error .invalidState'),
 (r'\.unexpectedEof','.other'),(r'\.writeZero','.other'),(r'\.invalidData','.other'),(r'\.pending\b','.ready 1'),
 (r'\.left\b','.right'),(r'\.single\b','.stream'),(r'\.idle\b','(.ended none)'),(r'\.waiting\b','.registered'),(r'\.registered\b','.waiting'),
 (r'\.inner\b','.cipher'),(r'some (\w+)\b',r'none'),(r'none\b',r'some default'),(r'(\w+)\.1\b',r'\1.2'),(r'isNone','isSome'),(r'isSome','isNone'),(r'isEmpty','isEmpty.not'),
 (r'\.append','.prepend'),(r' / ',' % '),(r' % ',' / '),(r'>>>','<<<'),(r'<<<','>>>'),(r'\|\|\|','&&&'),(r'head\?','getLast?'),(r'getLast\?','head?'),(r'\.reverse',''),
 (r'\.panic\b','.hang'),(r'\.hang\b','.panic'),(r'\bif (.*?) then','if True then'),(r'\bif (.*?) then','if False then')]
def comment_spans(s):
    return [m.span() for m in re.finditer(r'/-.*?-/|--.*?$',s,re.S|re.M)]
def fields(line):
    """Each `{ x with f := a, g := b }` without one of its updates, also nested ones."""
    for m in re.finditer(r'\{ (?:([\w.]+) with )?(?=\w+ := )',line):
        depth=0; parts=[]; st=m.end(); i=m.end()
        while i<len(line):
            c=line[i]
            if c in '{[(⟨': depth+=1
            elif c in ']}⟩)':
                if depth==0: break
                depth-=1
            elif c==',' and depth==0: parts.append(line[st:i]); st=i+2
            i+=1
        if i>=len(line): continue
        parts.append(line[st:i].rstrip())
        for k in range(len(parts)):
            rest=parts[:k]+parts[k+1:]
            if rest: yield line[:m.end()]+', '.join(p.strip() for p in rest)+' '+line[i:]
            elif m.group(1): yield line[:m.start()]+m.group(1)+line[i+1:]
def more(s,inc):
    """Other edits (MORE=1): a dropped update, a part of a condition dropped, two arguments swapped, one variable for another."""
    out=[]; pos=0; body=False
    for line in s.split('\n'):
        if re.match(r'(theorem|example|@\[simp\] theorem|inductive|deriving|import|namespace|open|variable|section|end\b|instance|structure)',line): body=False
        isdef=re.match(r'(def|abbrev|private def)',line)
        if isdef: body=True
        if body and not inc(pos+len(line)-len(line.lstrip())):
            start=0
            if isdef: start=line.find(':=')+2 if ':=' in line else len(line)
            head,tail=line[:start],line[start:]
            arm=re.match(r'^(\s*\| .*? => )(.*)$',tail)
            if arm: head,tail=head+arm.group(1),arm.group(2)
            for t in fields(tail): out.append((pos,line,head+t))
            for m in re.finditer(r'([\w.!]+(?: [=≠<≤∈] [\w.]+)?) (&&|\|\||∧|∨) ([\w.!]+(?: [=≠<≤∈] [\w.]+)?)',tail):
                for g in (1,3): out.append((pos,line,head+tail[:m.start()]+m.group(g)+tail[m.end():]))
            for m in re.finditer(r'(?<=[\w)] )([\w.]+|\([^()]*\)) ([\w.]+|\([^()]*\))(?=[ ,)}]|$)',tail):
                if m.group(1)!=m.group(2): out.append((pos,line,head+tail[:m.start()]+m.group(2)+' '+m.group(1)+tail[m.end():]))
            names=sorted(set(re.findall(r"(?<![\w.])[a-z]\w*'?(?![\w'])",line))-{'if','then','else','match','with','let','some','none','true','false','fun','do','return','def'})
            for m in re.finditer(r"(?<![\w.{])[a-z]\w*'?(?![\w']| :=| with)",tail):
                if m.group(0) in names:
                    for n in names:
                        if n!=m.group(0) and random.random()<0.15: out.append((pos,line,head+tail[:m.start()]+n+tail[m.end():]))
        pos+=len(line)+1
    return out
def mutants(path):
    s=open(path).read(); spans=comment_spans(s)
    inc=lambda i:any(a<=i<b for a,b in spans)
    out=[]; pos=0
    body=False
    for line in s.split('\n'):
        if re.match(r'(theorem|example|@\[simp\] theorem|inductive|deriving|import|namespace|open|variable|section|end\b|instance)',line): body=False
        if re.match(r'(def|structure|abbrev|where|private def)',line): body=True
        if re.match(r'structure',line): body=False
        if body and not inc(pos+len(line)-len(line.lstrip())):
            start=line.find(':=')+2 if re.match(r'def',line) else 0
            if re.match(r'def',line) and ':=' not in line: start=len(line)
            for pat,rep in SUBS:
                for m in re.finditer(pat,line):
                    if m.start()<start: continue
                    new=line[:m.start()]+m.expand(rep) if isinstance(rep,str) else line[:m.start()]+rep(m)
                    new+=line[m.end():]
                    if new!=line: out.append((pos,line,new))
            # drop a field update
            m=re.match(r'^(\s+)(\w+ := .*?)(\s*\}.*)?$',line)
            if m and m.group(1) and not line.strip().startswith('let'):
                out.append((pos,line,m.group(1)+(m.group(3) or '').strip()))
            m=re.search(r', (\w+ := [^,{}\[\]()]*?)(?=[,}])',line)
            if m: out.append((pos,line,line[:m.start()]+line[m.end():]))
        pos+=len(line)+1
    # swap the right sides of adjacent one-line arms
    ls=s.split('\n'); p=0
    for a,b in zip(ls,ls[1:]):
        ma=re.match(r'^(\s*\| .*? => )(.+)$',a); mb=re.match(r'^(\s*\| .*? => )(.+)$',b)
        if ma and mb and ma.group(2)!=mb.group(2):
            out.append((p,a+'\n'+b,ma.group(1)+mb.group(2)+'\n'+mb.group(1)+ma.group(2)))
        p+=len(a)+1
    if os.environ.get('MORE'): out=more(s,inc)
    return s,out
def build(target):
    p=subprocess.Popen(['lake','build',target],cwd=W,stdout=subprocess.PIPE,stderr=subprocess.STDOUT,text=True,start_new_session=True)
    fails=[]; t=time.time(); bad=False
    for l in p.stdout:
        m=re.match(r'error: (Verif/\S+\.lean):(\d+):',l)
        if m:
            d=m.group(1)+':'+decl_at(W+'/'+m.group(1),int(m.group(2)))
            if d not in fails: fails.append(d)
            bad=True
        elif bad and l.startswith(('✔','✖','⚠')): break
        elif bad and 'error: Lean exited' in l: break
        if time.time()-t>1500: break
    try: os.killpg(p.pid,signal.SIGKILL)
    except ProcessLookupError: pass
    rc=p.wait()
    return (rc==0 and not bad),fails
def main():
    random.seed(SEED)
    pool=[]
    only=os.environ.get('ONLY','').split()   # restrict to these model files
    for f in sorted(glob.glob(SRC+'/Verif/Model/*.lean')):
        if only and os.path.basename(f)[:-5] not in only: continue
        s,ms=mutants(f)
        seen=set(); ms2=[]
        for m in ms:
            if (m[0],m[2]) in seen: continue
            seen.add((m[0],m[2])); ms2.append(m)
        pool+=[(os.path.basename(f)[:-5],m) for m in ms2]
    print(len(pool),'candidates',flush=True)
    done=set()
    if os.path.exists(OUT):
        for l in open(OUT):
            r=json.loads(l); done.add((r['file'],r['pos'],r['new']))
    old=set()
    for f in glob.glob('/verif/seeded/results/*.jsonl'):
        for l in open(f):
            r=json.loads(l); old.add((r['file'],r['old'].strip(),r['new'].strip()))
    pool=[(f,m) for f,m in pool if (f,m[1].strip(),m[2].strip()) not in old]
    random.shuffle(pool); k=0
    for f,(pos,old,new) in pool:
        if k>=N: break
        if (f,pos,new) in done: continue
        src=SRC+'/Verif/Model/'+f+'.lean'; dst=W+'/Verif/Model/'+f+'.lean'
        s=open(src).read()
        shutil.rmtree(W,ignore_errors=True); subprocess.run(['cp','-a',SRC,W],check=True)
        open(dst,'w').write(s[:pos]+new+s[pos+len(old):])
        t=time.time()
        ok,fails=build('Verif.Model.'+f)
        rec={'file':f,'pos':pos,'line':s[:pos].count('\n')+1,'old':old,'new':new,'def':decl_at(src,s[:pos].count('\n')+1)}
        if not ok: rec['result']='invalid'
        else:
            k+=1
            ok,fails=build('Verif')
            if ok: rec['result']='SURVIVED'
            elif fails and all('/Model/' in x for x in fails): rec['result']='invalid'; k-=1
            elif not fails: rec['result']='unclear'
            else: rec['result']='killed'; rec['failed']=fails
        rec['secs']=round(time.time()-t)
        open(OUT,'a').write(json.dumps(rec,ensure_ascii=False)+'\n')
        if rec['result']!='invalid': print(k,rec['result'],f,rec['line'],repr(old.strip()[:90]),'->',repr(new.strip()[:90]),rec.get('failed',[])[:3],rec['secs'],flush=True)
main()
