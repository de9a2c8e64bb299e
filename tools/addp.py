"""addp.py ID TITLE STATEMENT QUANTIFIER WHY ANCHOR...  — append a property."""
import json,sys
i,t,s,q,w,*a=sys.argv[1:]
f='/verif/properties.jsonl'
assert i not in [json.loads(l)['id'] for l in open(f)]
open(f,'a').write(json.dumps({"id":i,"title":t,"statement":s,"quantifier":q,"why_tests_cant":w,"anchors":a},ensure_ascii=False)+"\n")
