#!/usr/bin/env python3
"""usage: setprop.py ID field text   (edit one field of one property)"""
import json,sys,os
p=os.path.join(os.path.dirname(os.path.dirname(os.path.abspath(__file__))),'properties.jsonl')
L=[json.loads(l) for l in open(p)]
for d in L:
    if d['id']==sys.argv[1]: d[sys.argv[2]]=sys.argv[3]
open(p,'w').write(''.join(json.dumps(d)+'\n' for d in L))
