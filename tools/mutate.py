#!/usr/bin/env python3
"""Mutation tests: apply one realistic bug to the model in a scratch copy, rebuild, log what fails.
usage: mutate.py FILE.json   (list of {file, definition, old, new, claim, why, [nth], [tightened]})"""
import json,os,re,subprocess,sys,shutil
SRC='/verif/lean'; DST='/tmp/mut/lean'; LOG='/verif/seeded/LOG.jsonl'
os.makedirs('/tmp/mut',exist_ok=True)
subprocess.run(['rsync','-a','--delete',SRC+'/',DST+'/'],check=False) if shutil.which('rsync') else (shutil.rmtree(DST,ignore_errors=True),shutil.copytree(SRC,DST,symlinks=True))
subprocess.run(['lake','build'],cwd=DST,capture_output=True)
man=json.load(open('/verif/MANIFEST.json'))
prop={t:c['property'] for c in man['claims'] for t in c['theorems']}
def mods():
    r={}
    for d,_,fs in os.walk(DST+'/Verif'):
        for f in fs:
            if f.endswith('.lean'):
                p=os.path.join(d,f); rel=os.path.relpath(p,DST); r[rel]=open(p).read()
    return r
def declof(text,line):
    name=None
    for i,l in enumerate(text.split('\n')[:line]):
        m=re.match(r'(?:@\[.*?\]\s*)?(?:private |protected |noncomputable )*(theorem|def|example|structure|inductive|instance|abbrev)\s*([\w.\'«»]*)',l)
        if m: name=m.group(2) or m.group(1)
    return name
def thms(text):
    ns=re.search(r'^namespace ([\w.]+)',text,re.M)
    return [(ns.group(1)+'.' if ns else '')+m for m in re.findall(r'^theorem ([\w.\']+)',text,re.M)]
for mu in json.load(open(sys.argv[1])):
    p=DST+'/Verif/'+mu['file']; s=open(p).read()
    n=s.count(mu['old'])
    if n==0: print('!! NOT FOUND',mu['definition'],mu['old']); continue
    if n>1 and 'nth' not in mu: print('!! AMBIGUOUS',n,mu['definition'],mu['old']); continue
    k=mu.get('nth',0); idx=-1
    for _ in range(k+1): idx=s.index(mu['old'],idx+1)
    open(p,'w').write(s[:idx]+mu['new']+s[idx+len(mu['old']):])
    out=subprocess.run(['lake','build'],cwd=DST,capture_output=True,text=True); txt=out.stdout+out.stderr
    M=mods(); failed=[]; badmods=set()
    for f,l in re.findall(r'error: (Verif/[\w/]+\.lean):(\d+):\d+:',txt):
        d=declof(M[f],int(l)); badmods.add(f)
        if d and (f,d) not in failed: failed.append((f,d))
    # modules transitively importing bad ones
    imp={f:[i.replace('.','/')+'.lean' for i in re.findall(r'^import (Verif[\w.]*)',t,re.M)] for f,t in M.items()}
    blocked=set(badmods); ch=True
    while ch:
        ch=False
        for f,im in imp.items():
            if f not in blocked and any(i in blocked for i in im): blocked.add(f); ch=True
    rejected=[t for f in blocked for t in thms(M[f]) if t in prop and (f not in badmods)]
    direct=[]
    for f,d in failed:
        ns=re.search(r'^namespace ([\w.]+)',M[f],re.M).group(1)
        direct.append(ns+'.'+d)
    modelerr=[d for f,d in failed if f.endswith('Model.lean')]
    rec=dict(definition=mu['definition'],file='lean/Verif/'+mu['file'],edit={'from':mu['old'],'to':mu['new']},claim_broken=mu['claim'],why_false=mu.get('why',''),
      outcome='caught' if failed else 'SURVIVED',theorems_failed=direct,theorems_not_reached=sorted(set(rejected)-set(direct)),theorems_tightened=mu.get('tightened',[]))
    print(rec['outcome'],mu['definition'],'|',mu['new'][:60].replace('\n',' '),'|',', '.join(direct)[:200],'MODEL-ERR' if modelerr else '')
    if not mu.get('dry'):
        open(LOG,'a').write(json.dumps(rec)+'\n')
    open(p,'w').write(s)
