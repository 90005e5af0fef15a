#!/usr/bin/env python3
"""print the statement of every MANIFEST theorem (optionally only of the property ids given)"""
import json,re,sys,glob
man=json.load(open('/verif/MANIFEST.json'))
files={f:open(f).read() for f in glob.glob('/verif/lean/Verif/**/*.lean',recursive=True)}
want=set(sys.argv[1:])
for c in man['claims']:
    if want and c['property'] not in want: continue
    print('=====',c['property'],c['status'])
    for t in c['theorems']:
        short=t.split('.')[-1]
        for f,s in files.items():
            ns=re.search(r'^namespace ([\w.]+)',s,re.M)
            if not ns or not t.startswith(ns.group(1)+'.'): continue
            m=re.search(r'((?:/--(?:(?!-/).)*-/\s*)?)theorem '+re.escape(t[len(ns.group(1))+1:])+r'\b(.*?):=',s,re.S)
            if m: print(m.group(1)+'theorem '+short+m.group(2)); break
