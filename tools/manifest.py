#!/usr/bin/env python3
"""Write MANIFEST.json: every theorem called Cnn_* in lean/Verif/Props belongs to property Cnn;
status and notes come from tools/status.json."""
import json,re,glob,os
root=os.path.dirname(os.path.dirname(os.path.abspath(__file__)))
names={}
for f in sorted(glob.glob(root+'/lean/Verif/Props/*.lean')):
    ns=[]
    for line in open(f):
        m=re.match(r'namespace (\S+)',line)
        if m: ns.append(m.group(1)); continue
        m=re.match(r'end (\S+)',line)
        if m and ns and ns[-1]==m.group(1): ns.pop(); continue
        m=re.match(r'(?:private )?theorem (\S+)',line)
        if m and re.match(r'C\d\d_',m.group(1)):
            names.setdefault(m.group(1)[:3],[]).append('.'.join(ns+[m.group(1)]))
st=json.load(open(root+'/tools/status.json'))
claims=[]
for l in open(root+'/properties.jsonl'):
    i=json.loads(l)['id']
    s,note=st.get(i,['partial','not proved yet'])
    claims.append({'property':i,'status':s,'theorems':names.get(i,[]),'note':note})
json.dump({'claims':claims},open(root+'/MANIFEST.json','w'),indent=1)
print(sum(len(v) for v in names.values()),'theorems;','without:',[c['property'] for c in claims if not c['theorems']])
