"""Turn the results of a mutation run into lines of seeded/LOG.jsonl (usage: seedlog.py res.jsonl [tightened.json])."""
import sys,json,re,os
R='/verif/lean/'
imp={}
def load(m):
    if m in imp: return
    p=R+m.replace('.','/')+'.lean'
    imp[m]=[x for x in re.findall(r'^import (Verif\S*)',open(p).read(),re.M)]
    for x in imp[m]: load(x)
load('Verif')
def deps(m,seen=None):
    seen=set() if seen is None else seen
    for x in imp.get(m,[]):
        if x not in seen: seen.add(x); deps(x,seen)
    return seen
claims=json.load(open('/verif/MANIFEST.json'))['claims']
where={}
for m in imp:
    if m.startswith('Verif.Props'):
        for t in re.findall(r'^theorem (\S+)',open(R+m.replace('.','/')+'.lean').read(),re.M): where[t]=m
tight=json.load(open(sys.argv[2])) if len(sys.argv)>2 else {}
out=open('/verif/seeded/LOG.jsonl','a')
for l in open(sys.argv[1]):
    r=json.loads(l)
    bad={b for b in r['bad']}
    failed=[e.split('::')[-1] for e in r['errs']]
    down=[]
    for c in claims:
        for t in c['theorems']:
            n=t.replace('Bf.','',1)
            m=where.get(n) or where.get(t.split('.')[-1])
            if m and (m in bad or deps(m)&bad): down.append(t)
    out.write(json.dumps(dict(definition=r['definition'],edit=r['edit'],claim_broken=r['claim'],survived=r['built'],
      theorems_failed=failed,property_theorems_no_longer_built=down[:12]+(['... %d in all'%len(down)] if len(down)>12 else []),
      theorems_tightened=tight.get(r['id'],[])))+'\n')
