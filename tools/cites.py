#!/usr/bin/env python3
"""Lists definitions of the model whose doc comment is missing or cites no file:lines."""
import re,glob,sys
D=re.compile(r'^(?:@\[[^\]]*\]\s*)?(?:private |protected |noncomputable )*(def|abbrev|structure|inductive)\s+(\S+)')
for d in ['Go','Client','Server','Pool','Mc','Cluster','Proxy','Spec']:
  for f in sorted(glob.glob(f'/verif/lean/Verif/{d}/*.lean')):
    L=open(f).read().split('\n')
    for i,l in enumerate(L):
        m=D.match(l)
        if not m: continue
        j=i-1
        while j>=0 and re.match(r'^(omit|set_option|open|@\[).*',L[j]): j-=1
        doc=''
        if j>=0 and L[j].rstrip().endswith('-/'):
            k=j
            while k>=0 and not L[k].startswith('/-'): k-=1
            doc='\n'.join(L[k:j+1])
        cite=re.search(r'\.go:\d+|bufio|strconv|errors|bytes|strings|encoding|io\.|fmt|net\.|sync',doc)
        if not doc: print(f'{d}/{f.split("/")[-1]}:{i+1}: {m.group(2)} NODOC')
        elif not cite and '-a' in sys.argv: print(f'{d}/{f.split("/")[-1]}:{i+1}: {m.group(2)} nocite: {doc[:110]!r}')
