import json,sys
# usage: setstatus.py CXX partial|proved "note"
p='tools/status.json'
d=json.load(open(p))
d[sys.argv[1]]=[sys.argv[2],sys.argv[3]]
with open(p,'w') as f:
    f.write("{\n"+",\n".join(json.dumps(k)+": "+json.dumps(v) for k,v in sorted(d.items()))+"\n}\n")
