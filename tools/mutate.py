"""mutate.py MUTFILE...  — apply each seeded edit to a scratch copy of the Lean project, rebuild, log the result.
A MUTFILE is a Python file defining M = [(file, old, new, definition, edit, claim), ...] (file relative to lean/Verif)."""
import json, os, re, subprocess, sys, shutil
SRC='/verif/lean'; DST='/tmp/mut/lean'; LOG='/verif/seeded/LOG.jsonl'
os.makedirs('/tmp/mut',exist_ok=True)
subprocess.run(['rsync','-a','--delete',SRC+'/',DST+'/'],check=False) if shutil.which('rsync') else (shutil.rmtree(DST,ignore_errors=True), subprocess.run(['cp','-a',SRC,DST],check=True))
def decl_at(path,line):
    ls=open(path).read().split('\n')
    for i in range(min(line,len(ls))-1,-1,-1):
        m=re.match(r'\s*(?:@\[[^\]]*\]\s*)?(?:private |protected |noncomputable )*(theorem|lemma|def|example|instance|abbrev|structure|inductive)\b\s*([^\s:({\[]*)',ls[i])
        if m: return m.group(2) if m.group(1)!='example' else 'example@%s:%d'%(os.path.basename(path),i+1)
    return '?'
done=set()
if os.path.exists(LOG):
    for l in open(LOG):
        if not l.strip(): continue
        d=json.loads(l); done.add((d['definition'],d['edit']))
surv=[]
if subprocess.run(['lake','build'],cwd=DST,capture_output=True).returncode: sys.exit('base does not build')
for mf in sys.argv[1:]:
    ns={}; exec(open(mf).read(),ns)
    for tup in ns['M']:
        f,old,new,dfn,edit,claim=tup[:6]; tight=list(tup[6]) if len(tup)>6 else []
        if (dfn,edit) in done and '--redo' not in os.environ.get('MUT',''): continue
        p=f'{DST}/Verif/{f}'; s=open(f'{SRC}/Verif/{f}').read()
        if s.count(old)!=1:
            print('!! BAD PATTERN',s.count(old),dfn,edit); continue
        open(p,'w').write(s.replace(old,new))
        r=subprocess.run(['lake','build'],cwd=DST,capture_output=True,text=True,timeout=3000)
        out=r.stdout+r.stderr
        fails=[]; mods=set()
        for m in re.finditer(r'error: (Verif/[\w/]+\.lean):(\d+):',out):
            d=decl_at(f'{DST}/{m.group(1)}',int(m.group(2)))
            if d not in fails: fails.append(d)
            mods.add(m.group(1))
        open(p,'w').write(s)
        rec=dict(definition=dfn,edit=edit,claim_broken=claim,theorems_failed=fails,failed_files=sorted(mods),theorems_tightened=tight)
        if r.returncode==0:
            print('** SURVIVED',f,dfn,'|',edit,'|',claim); surv.append(rec); continue
        if any(x.startswith('Verif/Model') for x in mods): print('?? model does not compile:',dfn,edit,out[-600:]); continue
        print('ok',dfn,'|',edit,'->',fails[:6]); sys.stdout.flush()
        open(LOG,'a').write(json.dumps(rec,ensure_ascii=False)+'\n')
print('survivors',len(surv))
