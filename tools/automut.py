#!/usr/bin/env python3
"""automut.py [PER_DEF] [SEED] [MODULE...]: random one-token mutants of the definitions in Verif/Model. Works in /tmp/auto,
appends one line per valid mutant to /verif/seeded/LOG.jsonl and prints survivors. A mutant is dropped if its own file no longer
compiles. The build is stopped at the first failing theorem, so `failed` names only that one."""
import sys, os, re, json, subprocess, random, time, signal, glob
SRC='/verif/lean'; W='/tmp/auto/lean'; LOG='/verif/seeded/LOG.jsonl'
per=int(sys.argv[1]) if len(sys.argv)>1 else 2
rnd=random.Random(int(sys.argv[2]) if len(sys.argv)>2 else 1)
only=sys.argv[3:]
subprocess.run(f'rm -rf {W}; cp -a {SRC} {W}',shell=True,check=True)
subprocess.run(['lake','build'],cwd=W,capture_output=True)
OPS=[(r' < ',' ≤ '),(r' ≤ ',' < '),(r' \+ ',' - '),(r' - ',' + '),(r' \* ',' + '),(r' / ',' * '),(r' ∧ ',' ∨ '),(r' ∨ ',' ∧ '),
 (r' = ',' ≠ '),(r' ≠ ',' = '),(r'\.reverse',''),(r'\.take ','.drop '),(r'\.drop ','.take '),(r'(?<![\w.])0(?![\w.])','1'),
 (r'(?<![\w.])1(?![\w.])','2'),(r'(?<![\w.])1(?![\w.])','0'),(r'\btrue\b','false'),(r'\bfalse\b','true'),(r'\.dropLast',''),
 (r'getLast\?','head?'),(r'head\?','getLast?'),(r'\.fst\b','.snd'),(r'\.snd\b','.fst'),(r'\.1\b','.2'),(r'\.2\b','.1'),(r'&&','||'),
 (r'\|\|','&&'),(r'\bmax\b','min'),(r'\bmin\b','max'),(r'\.all\b','.any'),(r'\.any\b','.all'),(r'\.sum\b','.prod'),(r'\.prod\b','.sum'),
 (r'⊤','0'),(r'(?<![\w.])2(?![\w.])','3'),(r' ∈ ',' ∉ '),(r' ∉ ',' ∈ '),(r'decide \(','!decide ('),(r'\.map ','.reverse.map '),
 (r'\.foldl ','.foldr '),(r'\.eraseIdx','.take'),(r' \^ ',' * '),(r' ≥ ',' > '),(r' > ',' ≥ '),(r'\bOption\.isSome\b','Option.isNone')]
def muts(body):
    out=[]
    for a,b in OPS:
        for m in re.finditer(a,body): out.append((m.start(),m.end(),b))
    for m in re.finditer(r'\bif (?!let|h |¬)([^\n]*?) then',body):
        out.append((m.start(),m.end(),f'if ¬ ({m.group(1)}) then'))
    for m in re.finditer(r'(\([^()\n]*\)|\w+) \+\+ (\[[^\[\]\n]*\]|\([^()\n]*\)|\w+)',body):
        out.append((m.start(),m.end(),f'{m.group(2)} ++ {m.group(1)}'))
    for m in re.finditer(r' \+\+ \[[^\[\]\n]*\]',body): out.append((m.start(),m.end(),''))
    return out
def thm_at(path,line):
    ls=open(path).read().split('\n')
    for i in range(min(line,len(ls))-1,-1,-1):
        m=re.match(r'(?:@\[\w+\] )?(?:noncomputable |private )?(theorem|lemma|def|structure|example|instance)\s*(\S*)',ls[i])
        if m: return m.group(2) if m.group(1)!='example' else 'example'
    return '?'
jobs=[]
for f in sorted(glob.glob(SRC+'/Verif/Model/*.lean')):
    name=os.path.basename(f)[:-5]
    if only and name not in only: continue
    s=open(f).read()
    for m in re.finditer(r'^(?:noncomputable )?def (\S+)(.*?)(?=^\s*$|^/--|^end |^variable|^namespace|\Z)',s,re.M|re.S):
        txt=m.group(2)
        k=re.search(r':=|\n\s+\|',txt)
        if not k: continue
        b0=m.start(2)+k.start()+2; body=s[b0:m.end(2)]
        # blank comments
        body=re.sub(r'--[^\n]*',lambda x:' '*len(x.group()),body)
        body=re.sub(r'/-.*?-/',lambda x:' '*len(x.group()),body,flags=re.S)
        c=muts(body); rnd.shuffle(c)
        jobs.append((name,m.group(1),[(b0+x,b0+y,z) for x,y,z in c]))
rnd.shuffle(jobs)
print(len(jobs),'definitions',sum(len(j[2]) for j in jobs),'mutants'); sys.stdout.flush()
st={'killed':0,'survived':0,'invalid':0}
for name,d,cs in jobs:
    p=f'{W}/Verif/Model/{name}.lean'; s=open(f'{SRC}/Verif/Model/{name}.lean').read()
    base=open(p).read()
    n=0
    for (x,y,z) in cs[:per*4]:
        if n>=per: break
        if s!=base: break
        t=s[:x]+z+s[y:]
        open(p,'w').write(t)
        r=subprocess.run(['lake','build',f'Verif.Model.{name}'],cwd=W,capture_output=True,text=True)
        if r.returncode!=0:
            st['invalid']+=1; continue
        n+=1
        ln=s[:x].count('\n'); old=s.split('\n')[ln].strip(); new=t.split('\n')[ln].strip()
        pr=subprocess.Popen(['lake','build','Verif'],cwd=W,stdout=subprocess.PIPE,stderr=subprocess.STDOUT,text=True,start_new_session=True)
        fail=None; t0=time.time()
        for line in pr.stdout:
            m=re.match(r'error: (Verif/\S+?\.lean):(\d+):',line)
            if m: fail=thm_at(W+'/'+m.group(1),int(m.group(2))); break
            if time.time()-t0>1500: fail='timeout'; break
        try: os.killpg(pr.pid,signal.SIGKILL)
        except ProcessLookupError: pass
        pr.wait()
        st['killed' if fail else 'survived']+=1
        e={'definition':d,'file':f'lean/Verif/Model/{name}.lean','edit':f'`{old}` -> `{new}`','claim_broken':'automatic mutant','failed':[fail] if fail else [],'tightened':[]}
        if not fail: e['survived']=True; print('SURVIVED',name,d,'|',old,'->',new)
        open(LOG,'a').write(json.dumps(e,ensure_ascii=False)+'\n')
        sys.stdout.flush()
    open(p,'w').write(base)
print(st)
