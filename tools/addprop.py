import json,sys
# usage: addprop.py file.json  (one object) appended to properties.jsonl
o=json.load(sys.stdin)
for x in (o if isinstance(o,list) else [o]):
    for k in ("id","title","statement","quantifier","why_tests_cant","anchors"): assert k in x
    open('/verif/properties.jsonl','a').write(json.dumps(x)+"\n")
