#!/usr/bin/env python3
"""Regenerate MANIFEST.json: collects theorem names CXX_* from lean/Verif/Props/*.lean (fully
qualified with namespace SR), status from STATUS below (default: proved if any theorem without
`_partial`, else partial)."""
import json,re,glob,os
root=os.path.dirname(os.path.dirname(os.path.abspath(__file__)))
notes=json.load(open(os.path.join(root,'tools','notes.json')))
th={}
for f in sorted(glob.glob(os.path.join(root,'lean/Verif/Props/*.lean'))):
    for m in re.finditer(r'^(?:private )?theorem (?:_root_\.SR\.)?(C\d\d)_(\S+)',open(f).read(),re.M):
        th.setdefault(m.group(1),[]).append('SR.%s_%s'%(m.group(1),m.group(2)))
claims=[]
for l in open(os.path.join(root,'properties.jsonl')):
    pid=json.loads(l)['id']; n=notes.get(pid,{})
    names=th.get(pid,[])
    st=n.get('status')
    if st is None:
        if not names: st=None
        elif any(x.endswith('_partial') for x in names): st='partial'
        else: st='proved'
    if st is None: continue
    claims.append(dict(property=pid,status=st,theorems=names,note=n.get('note','')))
json.dump(dict(claims=claims),open(os.path.join(root,'MANIFEST.json'),'w'),indent=1)
print({s:sum(c['status']==s for c in claims) for s in ('proved','partial','not_applicable')})
