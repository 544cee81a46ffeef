import json,sys
# usage: addprop.py < json lines
have={json.loads(l)['id'] for l in open('/verif/properties.jsonl')}
with open('/verif/properties.jsonl','a') as f:
    for l in sys.stdin:
        l=l.strip()
        if not l: continue
        d=json.loads(l); assert d['id'] not in have, d['id']
        assert set(d)=={'id','title','statement','quantifier','why_tests_cant','anchors'},d
        f.write(json.dumps(d,ensure_ascii=False)+"\n")
