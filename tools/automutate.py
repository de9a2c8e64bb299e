"""automutate.py NWORKERS [FILES...] — systematic token-level mutation of the model definitions.
Every mutant is built in a scratch copy; mutants under which the whole project still builds are reported in
/tmp/auto/survivors.jsonl (each is either an equivalent program or a sign of a missing theorem)."""
import json, os, re, subprocess, sys, shutil, signal, time
from concurrent.futures import ThreadPoolExecutor
import threading, queue
SRC='/verif/lean'; W='/tmp/auto'; os.makedirs(W,exist_ok=True)
OPS=[(r' < ',' ≤ '),(r' ≤ ',' < '),(r' > ',' ≥ '),(r' ≥ ',' > '),(r' == ',' != '),(r' != ',' == '),(r' ≠ ',' = '),
 (r' && ',' || '),(r' \|\| ',' && '),(r' ∧ ',' ∨ '),(r' ∨ ',' ∧ '),(r'(?<=[ (])!(?=[\w(])',''),(r' \+ 1\b',''),(r' - 1\b',''),
 (r' \+ (?=[\w(])',' - '),(r' - (?=[\w(])',' + '),(r' \* (?=[\w(])',' + '),(r' / (?=[\w(])',' * '),
 (r'(?<!\.)\btrue\b','false'),(r'(?<!\.)\bfalse\b','true'),(r'\.1\b(?!\.\d)','.2'),(r'\.2\b(?!\.\d)','.1'),
 (r'(?<![\w.\d])0(?![\w.\d])','1'),(r'(?<![\w.\d])1(?![\w.\d])','2'),(r'(?<![\w.\d])2(?![\w.\d])','3'),(r'(?<![\w.\d])(\d\d+)(?![\w.\d])',r'(\1 + 1)'),
 (r'\.take\b','.drop'),(r'\.drop\b','.take'),(r'\.head\?','.getLast?'),(r'\.getLast\?','.head?'),(r'\bmin\b','max'),(r'\bmax\b','min'),
 (r'\.minimum\b','.maximum'),(r'\.maximum\b','.minimum'),(r'\.any\b','.all'),(r'\.all\b','.any'),(r'\.reverse\b',''),(r'\.dropLast\b','.tail'),(r'\.tail\b','.dropLast'),
 (r'"([^"\\]+)"',r'"\1~"'),
 (r'(\w+) \+\+ \[([^\[\]]+)\]',r'[\2] ++ \1'),
 (r'\bthen ([^\n]+?) else ([^\n]+)$',r'then \2 else \1'),
 (r'(?<!\w)isNan\b','isFin'),(r'\.filter \(fun ([^=]+) => ',r'.filter (fun \1 => ! '),
 (r'\(some ([\w.]+)\)','none'),(r'\.getD ([\w.]+)\b(?= )',r'.getD default'),
 (r'\bif ([^\n]+?) then',r'if ¬(\1) then'),
 (r'^(\s+)(let \w+ := )if ([^\n]+) then ([^\n]+) else ([^\n]+)$',r'\1\2\4'),
]
def strip_spans(s):
    sp=[]
    for m in re.finditer(r'/-.*?-/',s,re.S): sp.append(m.span())
    for m in re.finditer(r'--[^\n]*',s): sp.append(m.span())
    return sp
def mutants(f):
    s=open(f'{SRC}/Verif/{f}').read(); sp=strip_spans(s); out=[]; seen=set()
    start=s.find('\nnamespace')
    for pat,rep in OPS:
        for m in re.finditer(pat,s,re.M):
            if m.start()<start or any(a<=m.start()<b for a,b in sp): continue
            ls=s.rfind('\n',0,m.start())+1
            line=s[ls:s.find('\n',m.start())]
            if re.match(r'\s*(import|open|namespace|end|variable|universe|set_option|section|theorem|deriving|structure|class|inductive)\b',line): continue
            # skip type-signature-only lines is not attempted: they fail to compile
            t=s[:m.start()]+m.expand(rep)+s[m.end():]
            if t==s or t in seen: continue
            seen.add(t)
            ln=s.count('\n',0,m.start())+1
            # enclosing def
            d='?'
            for mm in re.finditer(r'^(?:@\[[^\]]*\]\s*)?(?:noncomputable |private )*(def|abbrev|instance|theorem|inductive|structure)\s+([^\s:({\[]+)',s[:m.start()],re.M): d=mm.group(2); k=mm.group(1)
            if d!='?' and k in('theorem','inductive','structure'): continue
            out.append(dict(file=f,line=ln,definition=d,old=line.strip(),new=t[t.rfind('\n',0,m.start())+1:t.find('\n',m.start())].strip(),text=t))
    return out
def setup(i):
    d=f'{W}/w{i}'
    if not os.path.exists(d): subprocess.run(['cp','-a',SRC,d],check=True)
    else:
        subprocess.run(f'cp -a {SRC}/Verif/. {d}/Verif/ && cp -a {SRC}/Verif.lean {d}/',shell=True,check=True)
    r=subprocess.run(['lake','build'],cwd=d,capture_output=True,text=True)
    assert r.returncode==0,r.stdout[-500:]
    return d
def run(d,mu):
    p=f'{d}/Verif/{mu["file"]}'; orig=open(f'{SRC}/Verif/{mu["file"]}').read()
    open(p,'w').write(mu['text'])
    pr=subprocess.Popen(['lake','build'],cwd=d,stdout=subprocess.PIPE,stderr=subprocess.STDOUT,text=True,start_new_session=True,env={**os.environ,'LEAN_NUM_THREADS':'2'})
    verdict='survived'; where=''
    t0=time.time(); timer=threading.Timer(400,lambda: os.killpg(pr.pid,signal.SIGKILL)); timer.start()
    for l in pr.stdout:
        m=re.match(r'error: (Verif/[\w/]+\.lean):(\d+)',l)
        if m:
            where=m.group(1)+':'+m.group(2)
            verdict='invalid' if m.group(1)==f'Verif/{mu["file"]}' else ('model' if m.group(1).startswith('Verif/Model') else 'killed')
            os.killpg(pr.pid,signal.SIGKILL); break
    pr.wait(); timer.cancel()
    if verdict=='survived' and pr.returncode!=0: verdict='timeout'
    open(p,'w').write(orig)
    return verdict,where,time.time()-t0
if __name__=='__main__':
    n=int(sys.argv[1]); files=sys.argv[2:]
    if n==0:
        tot=0
        for f in files: k=len(mutants(f)); tot+=k; print(f,k)
        print(tot); sys.exit()
    q=queue.Queue()
    done=set()
    lp=f'{W}/log.jsonl'
    if os.path.exists(lp):
        for l in open(lp): d=json.loads(l); done.add((d['file'],d['definition'],d['old'],d['new']))
    for f in files:
        for m in mutants(f):
            if (m['file'],m['definition'],m['old'],m['new']) not in done: q.put(m)
    print('mutants',q.qsize(),flush=True)
    lock=threading.Lock()
    def work(i):
        d=setup(i)
        while True:
            try: mu=q.get_nowait()
            except queue.Empty: return
            v,w,t=run(d,mu)
            rec={k:mu[k] for k in('file','line','definition','old','new')}; rec.update(verdict=v,where=w,t=round(t,1))
            with lock:
                open(lp,'a').write(json.dumps(rec,ensure_ascii=False)+'\n')
                if v in('survived','timeout'): print(v,rec['file'],rec['line'],rec['definition'],'|',rec['old'],'=>',rec['new'],flush=True)
    ts=[threading.Thread(target=work,args=(i,)) for i in range(n)]
    [t.start() for t in ts]; [t.join() for t in ts]
