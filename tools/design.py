#!/usr/bin/env python3
import json
h=open('/verif/tools/design_head.md').read()
P=[json.loads(l) for l in open('/verif/properties.jsonl')]
m={c['property']:c for c in json.load(open('/verif/MANIFEST.json'))['claims']}
out=h
for p in P:
    c=m[p['id']]
    out+=f"* **{p['id']}** {p['title']} ({c['status']}). {c.get('note','')} Theorems: "+', '.join('`'+t.split('.')[-1]+'`' for t in c['theorems'])+'.\n'
open('/verif/DESIGN.md','w').write(out)
