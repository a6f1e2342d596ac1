"""Convert the results of the mutation harness into /verif/seeded/LOG.jsonl.
usage: seedlog.py results.jsonl [tightened.json]"""
import json,sys,re
T=json.load(open(sys.argv[2])) if len(sys.argv)>2 else {}
out=[]
seen={}
for l in open(sys.argv[1]):
    d=json.loads(l)
    k=d['id']; n=seen.get(k,0); seen[k]=n+1
    key=k if n==0 else f'{k}#{n+1}'
    # theorem failures: declarations that stopped type-checking, then every property theorem lost with them
    out.append(dict(id=key,definition=d['definition'],edit=d['edit'],claim=d['claim'],
      expected_claims=d['expect'],
      theorems_failed=d['broken'],
      failed_first=d['failed'],
      survived_though_claim_false=d['survived'],
      theorems_tightened=T.get(key,[])))
    if n: out[-1]['note']='rerun after tightening'
open('/verif/seeded/LOG.jsonl','w').write(''.join(json.dumps(o,ensure_ascii=False)+'\n' for o in out))
