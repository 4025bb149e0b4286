import json,re,glob
# claims: id -> (status, note). theorems collected automatically by prefix Cxx_
exec(open('/tmp/w/claims.py').read())
thms={}
for f in sorted(glob.glob('/verif/lean/Verif/Props/*.lean')):
    ns=[]
    for line in open(f):
        if m:=re.match(r'namespace ([\w.]+)',line): ns.append(m.group(1))
        elif (m:=re.match(r'end ([\w.]+)',line)) and ns and ns[-1]==m.group(1): ns.pop()
        elif m:=re.match(r'theorem (C(\d+)_\w+)',line):
            thms.setdefault('C'+m.group(2),[]).append('.'.join(ns+[m.group(1)]))
ids=[json.loads(l)['id'] for l in open('/verif/properties.jsonl')]
out=[]
for i in ids:
    if i in CL:
        st,note=CL[i]
        out.append(dict(property=i,status=st,theorems=thms.get(i,[]),note=note))
    elif i in thms: print("unclaimed",i)
    else: print("todo",i,end=' ')
for c in out:
    if c['status']!='not_applicable' and not c['theorems']: print("NO THEOREMS",c)
json.dump({"claims":out},open('/verif/MANIFEST.json','w'),indent=1)
print(len(out))
