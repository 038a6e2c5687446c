import json,re,glob
# collect theorem names C##_ from Props
names={}
for f in sorted(glob.glob('/verif/lean/Verif/Props/*.lean')):
    ns=[]
    for l in open(f):
        m=re.match(r'\s*(?:@\[[^\]]*\]\s*)?theorem\s+((?:C\d\d)_\w+)',l)
        if m: names.setdefault(m.group(1)[:3],[]).append('CC.Props.'+m.group(1))
notes=json.load(open('/verif/tools/notes.json'))
claims=[]
for l in open('/verif/properties.jsonl'):
    i=json.loads(l)['id']
    if i in names:
        st=notes.get(i,{}).get('status','proved')
        claims.append(dict(property=i,status=st,theorems=names[i],note=notes.get(i,{}).get('note','')))
json.dump({"claims":claims},open('/verif/MANIFEST.json','w'),indent=1)
print(len(claims),'claims')
