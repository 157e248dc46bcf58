#!/usr/bin/env python3
"""Turns the results of mutation runs (seeded/results/*.jsonl, written by tools/mutate.py) into seeded/LOG.jsonl.
usage: seedlog.py deps.tsv   (deps.tsv: one line per claim theorem, tab, the constants its proof uses transitively)"""
import json,re,sys,glob,os
V='/verif'
deps={}
for l in open(sys.argv[1]):
    n,cs=l.rstrip('\n').split('\t')
    deps[n.split('.')[-1]]=set(c.split('.')[-1] for c in cs.split())|set('.'.join(c.split('.')[-2:]) for c in cs.split())
TIGHT=json.load(open(V+'/seeded/tightened.json'))
HAND=json.load(open(V+'/seeded/by_hand.json'))
def enclosing(file,old):
    p=V+'/lean/Verif/Model/'+file+'.lean'
    s=open(p).read(); i=s.find(old)
    if i<0: return file
    best=file
    for m in re.finditer(r'^(?:@\[[^\]]*\]\s*)?(?:private\s+|protected\s+)?(?:def|structure|inductive|abbrev|instance)\s+([\w\.«»]+)',s,re.M):
        if m.start()<=i+len(old)-1: best=m.group(1)
    return file+'.'+best
out=[]
for f in sorted(glob.glob(V+'/seeded/results/*.jsonl')):
    for l in open(f):
        m=json.loads(l); r=m['res']
        if r.get('error'): continue
        first=r.get('failed',[])
        claims=[x for x in first if re.match(r'C\d\d',x)]
        helpers=[x for x in first if not re.match(r'C\d\d',x) and not x.startswith('example')]
        dep=sorted(n for n,cs in deps.items() if any(h in cs or any(c.startswith(h+'?') for c in cs) for h in helpers))
        tf=sorted(set(claims+dep))
        claim=m['claim'] or ('automatic edit; claims whose proofs it breaks: '+', '.join(sorted({x[:3] for x in tf})) if tf else 'automatic edit; breaks no claim')
        e={'id':m['id'],'definition':m['file']+'.'+m['def'] if m.get('def') else enclosing(m['file'],m['old']),'edit':{'old':m['old'],'new':m['new']},'claim':claim,
           'outcome':'survived' if r['ok'] else 'rejected','first_failures':first,
           'theorems_failed':tf,'theorems_tightened':TIGHT.get(m['id'],[])}
        if m['id'] in HAND: e['by_hand']=HAND[m['id']]
        out.append(e)
open(V+'/seeded/LOG.jsonl','w').write(''.join(json.dumps(e,ensure_ascii=False)+'\n' for e in out))
print(len(out),sum(e['outcome']=='survived' for e in out),[e['id'] for e in out if e['outcome']=='rejected' and not e['theorems_failed']])
