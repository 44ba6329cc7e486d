#!/usr/bin/env python3
"""Rewrites seeded/LOG.jsonl from the result files of the mutation runs (scratch, outside /verif)."""
import json,sys
TIGHT={('Integer','IntegerResult.shr'):['BCash.C65_shr_exact'],('Integer','IntegerResult.shl'):['BCash.C65_shl_partial','BCash.C65_shl_fails'],
 ('TxBuilder','toPreimageTx'):['BCash.C63_* (Props/Spend.lean)']}
RESOLVED=json.load(open('/verif/tools/mutnotes.json'))
out=[]
for path in sys.argv[1:]:
    for l in open(path):
        r=json.loads(l)
        if r['res'].get('error') or r['res'].get('model_error') and not r['res']['built']: continue
        built=r['res']['built']
        key=r['file']+'|'+r['new']
        t=[]
        if built or key in RESOLVED: t=RESOLVED.get(key,{}).get('tightened',[])
        d=dict(definition='Verif/Model/%s.lean: %s'%(r['file'],r['defn']),edit='%s  ==>  %s'%(r['old'],r['new']),
          claim=(', '.join(r['claims'])+': ' if r['claims'] else 'none: ')+r['why'],
          theorems_failed=sorted(set([x for x in r['res']['direct'] if 'example' not in x]+r['res']['props'])),
          theorems_tightened=t)
        if built or key in RESOLVED: d['note']=RESOLVED.get(key,{}).get('note','survived; no listed property is falsified by the edit')
        out.append(d)
EXTRA=[dict(definition='Verif/Props/Preimage.lean: C24 (the statement, not the model)',edit='reviewed by hand: the disjunct "there is a collision of H" was true for every H of finite range',
  claim='C24: two transactions with the same signature hash are the same',theorems_failed=[],theorems_tightened=['BCash.C24_*'],
  note='the statement was vacuous for real hash functions; the disjunct is now that the two messages of these very transactions collide (Collide H x y)')]
out+=EXTRA
open('/verif/seeded/LOG.jsonl','w').write(''.join(json.dumps(d,ensure_ascii=False)+'\n' for d in out))
print(len(out))
