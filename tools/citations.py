"""citations.py — check the citations of the model: every cited file exists, every cited range lies inside the file, and
at least one identifier quoted in the comment occurs in the cited lines."""
import re,glob,os,sys
REPO='/repo/'
n=bad=0
nocite=[]
for f in sorted(glob.glob('/verif/lean/Verif/Model/*.lean')):
    s=open(f).read()
    for m in re.finditer(r'/--(.*?)-/\s*((?:@\[[^\]]*\]\s*)?(?:private |noncomputable |partial )*(?:def|structure|inductive|abbrev|instance|class)\s+([^\s:({\[]+))',s,re.S):
        doc,name=m.group(1),m.group(3)
        # running file context: "src/wax/x.py:1-2, 5-9"
        cites=[]
        for c in re.finditer(r'((?:src/wax/)?[\w/]+\.py):((?:\d+(?:[-–]\d+)?)(?:(?:, | and |,)\d+(?:[-–]\d+)?)*)',doc):
            p=c.group(1)
            if not p.startswith('src/'): p='src/wax/'+p
            for r in re.findall(r'\d+(?:[-–]\d+)?',c.group(2)):
                a,*b=re.split('[-–]',r); cites.append((p,int(a),int(b[0]) if b else int(a)))
        if not cites:
            nocite.append((os.path.basename(f),name,doc.strip()[:90].replace('\n',' '))); continue
        ids=set()
        for q in re.findall(r'`([^`]+)`',doc):
            ids|=set(re.findall(r'[A-Za-z_][A-Za-z_0-9]{2,}',q))
        text=''
        for p,a,b in cites:
            n+=1
            if not os.path.exists(REPO+p): print('NOFILE',os.path.basename(f),name,p); bad+=1; continue
            L=open(REPO+p).read().split('\n')
            if b>len(L) or a>b: print('RANGE',os.path.basename(f),name,p,a,b,len(L)); bad+=1; continue
            text+='\n'.join(L[a-1:b])+'\n'
        if ids and text and not any(re.search(r'\b'+re.escape(i)+r'\b',text) for i in ids):
            print('IDENT',os.path.basename(f),name,cites,sorted(ids)[:5]); bad+=1
print(n,'citations,',bad,'suspicious,',len(nocite),'definitions without one')
if '-n' in sys.argv:
    for x in nocite: print(*x)
