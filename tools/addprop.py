#!/usr/bin/env python3
"""Append a property (JSON on stdin) to properties.jsonl, a line to DESIGN.md section 2 and imports to Verif.lean."""
import json,sys
d=json.load(sys.stdin)
design=d.pop('_design',None); imps=d.pop('_imports',[])
ids=[json.loads(l)['id'] for l in open('properties.jsonl')]
if d.get('id') and d['id'] not in ids:
    keys=['id','title','statement','quantifier','why_tests_cant','anchors']
    assert sorted(d)==sorted(keys),d.keys()
    open('properties.jsonl','a').write(json.dumps(d)+'\n')
if design:
    t=open('DESIGN.md').read()
    m="\nEvery listed property can be expressed"
    assert m in t
    t=t.replace(m,"* "+design+"\n"+m,1) if not t.split(m)[0].endswith('\n\n') else t.replace(m,"* "+design+"\n"+m,1)
    open('DESIGN.md','w').write(t)
v=open('lean/Verif.lean').read().rstrip('\n').split('\n')
for i in imps:
    l='import '+i
    if l not in v: v.append(l)
open('lean/Verif.lean','w').write('\n'.join(v)+'\n')
