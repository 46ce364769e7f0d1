#!/usr/bin/env python3
"""Regenerate MANIFEST.json from the theorem names in lean/Verif/Props (prefix Cnn_) and notes below."""
import json,re,glob,os
here=os.path.dirname(os.path.abspath(__file__))
notes=json.load(open(os.path.join(here,'notes.json')))
th={}
for f in sorted(glob.glob(os.path.join(here,'lean/Verif/Props/*.lean'))):
    for m in re.finditer(r'^theorem\s+(C\d+)_(\S+)',open(f).read(),re.M):
        th.setdefault(m.group(1),[]).append('Phenum.%s_%s'%(m.group(1),m.group(2)))
claims=[]
for l in open(os.path.join(here,'properties.jsonl')):
    p=json.loads(l)['id']
    n=notes.get(p,{})
    if p in th:
        st=n.get('status') or ('partial' if any(t.endswith('_partial') for t in th[p]) else 'proved')
        claims.append({'property':p,'status':st,'theorems':th[p],'note':n.get('note','')})
    elif n.get('status')=='not_applicable':
        claims.append({'property':p,'status':'not_applicable','theorems':[],'note':n['note']})
json.dump({'claims':claims},open(os.path.join(here,'MANIFEST.json'),'w'),indent=1)
print(len(claims),[c['property']+':'+c['status'] for c in claims])
