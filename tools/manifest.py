#!/usr/bin/env python3
"""Regenerates MANIFEST.json from tools/claims/*.txt.
Each line: Cxx | status | theorem names (space separated, without namespace prefix 'Verif.') | note"""
import json,glob,os
base=os.path.dirname(os.path.dirname(os.path.abspath(__file__)))
claims=[]
for f in sorted(glob.glob(base+'/tools/claims/*.txt')):
    for line in open(f):
        line=line.strip()
        if not line or line.startswith('#'): continue
        p,st,th,note=[x.strip() for x in line.split('|',3)]
        claims.append(dict(property=p,status=st,theorems=['Verif.'+t for t in th.split()],note=note))
claims.sort(key=lambda c:int(c['property'][1:]))
json.dump({'claims':claims},open(base+'/MANIFEST.json','w'),indent=1)
print(len(claims),'claims')
