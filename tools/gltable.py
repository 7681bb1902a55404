#!/usr/bin/env python3
"""Transcribes /repo/src/math_glquadrature.h into lean/Verif/Core/GLTable.lean (decimal literals times 10^19)."""
import re
from fractions import Fraction as F
t=open('/repo/src/math_glquadrature.h').read()
P={};W={}
for m in re.finditer(r'GL(POINTS|WEIGHTS)(\d+)\s*\[(\d+)\]\s*=\s*\{([^}]*)\}',t):
    v=[x.strip() for x in m.group(4).split(',')]
    (P if m.group(1)=='POINTS' else W)[int(m.group(2))]=v
S=10**19
def I(s):
    x=F(s)*S
    assert x.denominator==1
    return str(x.numerator)
out="""/-! Transcription of the tables in /repo/src/math_glquadrature.h:14-60 (generated by tools/gltable.py): each decimal literal
times 10^19. The C++ compiler rounds the literals to the nearest double (relative error 2^-53), which is not represented. -/
namespace Verif.GL

/-- math_glquadrature.h:63-64: `GLPOINTS[N]` (times 10^19); empty list = null pointer. -/
def points : Nat → List Nat
"""
for n in sorted(P): out+="  | %d => [%s]\n"%(n,", ".join(I(a) for a in P[n]))
out+="  | _ => []\n\n/-- math_glquadrature.h:63-64: `GLWEIGHTS[N]` (times 10^19). -/\ndef weights : Nat → List Nat\n"
for n in sorted(W): out+="  | %d => [%s]\n"%(n,", ".join(I(a) for a in W[n]))
out+="  | _ => []\n\nend Verif.GL\n"
open('/verif/lean/Verif/Core/GLTable.lean','w').write(out)
