#!/usr/bin/env python3
"""Single source of properties.jsonl and MANIFEST.json.  Run: python3 tools/gen.py
Every tools/props_*.py defines a list P of dicts with keys
  id,title,statement,quantifier,why,anchors,status,theorems,note."""
import json,glob,os,importlib.util,re
root=os.path.dirname(os.path.dirname(os.path.abspath(__file__)))
P=[]
for f in sorted(glob.glob(os.path.join(root,'tools','props_*.py'))):
    s=importlib.util.spec_from_file_location('m',f); m=importlib.util.module_from_spec(s); s.loader.exec_module(m); P+=m.P
P.sort(key=lambda p:int(p['id'][1:]))
sp=importlib.util.spec_from_file_location('claims',os.path.join(root,'tools','claims.py')); cm=importlib.util.module_from_spec(sp); sp.loader.exec_module(cm)
for p in P:
    if p['id'] in cm.C: p.update(cm.C[p['id']])
ids=[p['id'] for p in P]; assert len(ids)==len(set(ids)),[i for i in ids if ids.count(i)>1]
with open(os.path.join(root,'properties.jsonl'),'w') as o:
    for p in P:
        o.write(json.dumps({'id':p['id'],'title':p['title'],'statement':p['statement'],'quantifier':p['quantifier'],
          'why_tests_cant':p['why'],'anchors':p['anchors']},ensure_ascii=False)+'\n')
claims=[]
src=''.join(open(f).read() for f in glob.glob(os.path.join(root,'lean/Verif/**/*.lean'),recursive=True))
for p in P:
    if not p.get('theorems') and p.get('status')!='not_applicable': continue
    for t in p.get('theorems',[]):
        short=t.split('.')[-1]
        if not re.search(r'theorem\s+(\S+\.)?'+re.escape(short)+r'\b',src): print('MISSING',p['id'],t)
    claims.append({'property':p['id'],'status':p['status'],'theorems':p.get('theorems',[]),'note':p.get('note','')})
json.dump({'claims':claims},open(os.path.join(root,'MANIFEST.json'),'w'),indent=1,ensure_ascii=False)
print(len(P),'properties,',len(claims),'claims')
