import json,re,glob
src=''.join(open(f).read() for f in sorted(glob.glob('/verif/lean/Verif/Props/*.lean')))
names=re.findall(r'^theorem (C\d+_\w+)',src,re.M)
status=json.load(open('/verif/tools/status.json'))
props=[json.loads(l)['id'] for l in open('/verif/properties.jsonl')]
claims=[]
for p in props:
    th=['MieDiff.'+n for n in names if n.startswith(p+'_')]
    st=status.get(p)
    if not st:
        if th: print('no status',p)
        continue
    claims.append({"property":p,"status":st[0],"theorems":th,"note":st[1]})
    if not th and st[0]!='not_applicable': print('no theorems',p)
json.dump({"claims":claims},open('/verif/MANIFEST.json','w'),indent=1)
print(len(claims),'claims',len(names),'theorems; missing',[p for p in props if p not in status])
