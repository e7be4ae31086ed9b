#!/usr/bin/env python3
"""Regenerate MANIFEST.json and lean/Verif.lean from the property files.
Theorems named Cxx_* in lean/Verif/Props belong to property Cxx.  A property is 'partial'
when any of its theorems is named *_partial / *_refuted (or listed in PARTIAL)."""
import re,json,glob,os
root='/verif'
mods=sorted(p[len(root+'/lean/'):-5].replace('/','.') for p in glob.glob(root+'/lean/Verif/**/*.lean',recursive=True))
open(root+'/lean/Verif.lean','w').write(''.join('import %s\n'%m for m in mods))
notes=json.load(open(root+'/tools/notes.json'))
thms={}
for f in sorted(glob.glob(root+'/lean/Verif/Props/*.lean')):
    ns=[]
    for l in open(f):
        m=re.match(r'namespace (\S+)',l)
        if m: ns.append(m.group(1))
        m=re.match(r'end (\S+)\s*$',l)
        if m and ns and ns[-1]==m.group(1): ns.pop()
        m=re.match(r'theorem (C\d\d+)_(\S+)',l)
        if m: thms.setdefault(m.group(1),[]).append('.'.join(ns+[m.group(1)+'_'+m.group(2)]))
claims=[]
for l in open(root+'/properties.jsonl'):
    if not l.strip(): continue
    p=json.loads(l); i=p['id']; t=thms.get(i,[])
    n=notes.get(i,{})
    if n.get('status'): st=n['status']
    elif not t: continue
    elif any(re.search('_partial|_refuted',x) for x in t): st='partial'
    else: st='proved'
    claims.append({'property':i,'status':st,'theorems':t,'note':n.get('note','')})
unk=set(thms)-{c['property'] for c in claims}
if unk: print('UNKNOWN ids',unk)
json.dump({'claims':claims},open(root+'/MANIFEST.json','w'),indent=1)
print(len(claims),'claims',sum(len(c['theorems']) for c in claims),'theorems',[c['property'] for c in claims if c['status']=='partial'])
