#!/usr/bin/env python3
"""mutate.py FILE.py : run the wrong-program tests listed in FILE.py (a list MUT of
(module, old, new, definition, edit, claim)). Works in /tmp/mut, appends to /verif/seeded/LOG.jsonl."""
import sys, os, re, json, subprocess, runpy, time
SRC='/verif/lean'; W='/tmp/mut/lean'
MUT=runpy.run_path(sys.argv[1])['MUT']
os.makedirs('/tmp/mut',exist_ok=True)
subprocess.run(f'rm -rf {W}; cp -a {SRC} {W}',shell=True,check=True)
subprocess.run(['lake','build'],cwd=W,capture_output=True)
def thm_at(path,line):
    ls=open(path).read().split('\n')
    for i in range(min(line,len(ls))-1,-1,-1):
        m=re.match(r'(?:noncomputable |private )?(theorem|lemma|def|structure|example|instance)\s*(\S*)',ls[i])
        if m: return m.group(2) if m.group(1)!='example' else 'example'
    return '?'
def imports():
    g={}
    for r,d,f in os.walk(W+'/Verif'):
        for x in f:
            if x.endswith('.lean'):
                p=os.path.join(r,x); mod=os.path.relpath(p,W)[:-5].replace('/','.')
                g[mod]=re.findall(r'^import (Verif\S*)',open(p).read(),re.M)
    return g
for (mod,old,new,dfn,edit,claim) in MUT:
    p=f'{W}/Verif/{mod}.lean'
    s=open(p).read()
    if s.count(old)!=1:
        print('BAD',dfn,edit,s.count(old)); continue
    open(p,'w').write(s.replace(old,new))
    t=time.time()
    r=subprocess.run('timeout 1500 lake build Verif',cwd=W,shell=True,capture_output=True,text=True)
    out=r.stdout+r.stderr
    failed=[]; fmods=set()
    for m in re.finditer(r'^error: (Verif/\S+?\.lean):(\d+):',out,re.M):
        n=thm_at(W+'/'+m.group(1),int(m.group(2)))
        fmods.add(m.group(1)[:-5].replace('/','.'))
        if n not in failed: failed.append(n)
    g=imports(); blocked=set(fmods); ch=True
    while ch:
        ch=False
        for k,v in g.items():
            if k not in blocked and any(x in blocked for x in v): blocked.add(k); ch=True
    bl=sorted(b for b in blocked-fmods if b.startswith('Verif.Props'))
    rec=dict(definition=dfn,file=f'lean/Verif/{mod}.lean',edit=edit,claim_broken=claim,failed=failed,not_reached=bl,tightened=[])
    if not failed: rec['survived']=True
    print(('SURVIVED ' if not failed else 'killed   ')+dfn+' | '+edit+' | '+','.join(failed)[:150]+f' {time.time()-t:.0f}s',flush=True)
    open('/verif/seeded/LOG.jsonl' if len(sys.argv)<3 else sys.argv[2],'a').write(json.dumps(rec)+'\n')
    open(p,'w').write(s)
subprocess.run(['lake','build'],cwd=W,capture_output=True)
