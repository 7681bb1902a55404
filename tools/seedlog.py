#!/usr/bin/env python3
"""collect the records of the seeded-bug harness into seeded/LOG.jsonl"""
import json,glob,sys,re
man=json.load(open('/verif/MANIFEST.json'))
cl={}
for c in man['claims']:
    for t in c['theorems']: cl.setdefault(t.replace('Verif.',''),[]).append(c['property'])
T={ # tightenings made after a survivor: (definition, substring of edit) -> theorems
 ('fcmp','nan codes'):['Core.C39_nan'],
 ('polishRoot3','wrong sign'):['Core.C44_polish_halley','Core.C44_polish_moves'],
 ('wrapAngle','boundary'):['Core.C13_wrapAngle_range_any_rounding'],
 ('isAlphanumeric','underscore not identifier char'):['Strings.isAlphanumeric_iff','Strings.C43_demangle_compositional'],
 ('getlinesAux','last line w/o newline lost'):['Config.C07_lines'],
 ('sort3','last comparison dropped'):['Core.C44_sorting'],
 ('Nb.dxToPosneg','factor 2'):['FindMin.C47_posneg_concave_partial','FindMin.C47_refuted_concave'],
}
try: T2=json.load(open('/verif/tools/tightened.json'))
except Exception: T2=[]
EQ={('powLoop','n%2==1'):'equivalent: differs only for odd negative n, which the loop never sees; no claim becomes false',
 ('linInt','degenerate'):'equivalent: the value is multiplied by zero on strictly increasing grids; no claim becomes false',
 ('vCarToCyl','on the axis'):'deliberate control: another convention on the axis for which every stated claim stays true'}
out=[]
fs=sorted(glob.glob('/tmp/seed/m*.out.jsonl'),key=lambda s:int(re.search(r'm(\d+)\.',s).group(1)))
for f in fs:
    for l in open(f):
        r=json.loads(l)
        th=[t for t in r['affected']]+[t for t in r['failed'] if not any(a.split('.')[-1]==t for a in r['affected'])]
        ids=sorted({c for t in r['affected'] for c in cl.get(t,[])})
        claim=r['claim']
        if ids and not any(i in claim for i in ids): claim=re.sub(r'^C\d\d\??\s*','',claim); claim=(','.join(ids)+' '+claim).strip()
        rec=dict(definition=r['definition'],file='lean/Verif/'+r['key'].split('|')[0],edit=r['edit'],claim=claim,failed=th,tightened=[])
        for (d,s),v in T.items():
            if r['definition']==d and s in r['edit'] and 'rerun' not in r['edit']: rec['tightened']=v
        if r['ok']:
            rec['survived']=True
            for (d,s),v in EQ.items():
                if r['definition']==d and s in r['edit']: rec['note']=v
        for d,s,v in T2:
            if r['definition']==d and s in r['edit'] and r['ok']: rec['tightened']=v if isinstance(v,list) else []; 
            if r['definition']==d and s in r['edit'] and r['ok'] and isinstance(v,str): rec['note']=v
        out.append(rec)
open('/verif/seeded/LOG.jsonl','w').write(''.join(json.dumps(r)+'\n' for r in out))
print(len(out),'records; survivors:',[(r['definition'],r['edit'][:30],r['tightened'],r.get('note','')[:20]) for r in out if r.get('survived')])
print('killed with no theorem:',[(r['definition'],r['edit']) for r in out if not r.get('survived') and not r['failed']])
