import json,sys
f='/verif/tools/status.json'
st=json.load(open(f))
st[sys.argv[1]]=[sys.argv[2],sys.argv[3]]
json.dump(st,open(f,'w'),indent=0)
