# writes /verif/AXIOMS.md: the axioms of every theorem named in MANIFEST.json (needs a built project)
import json,re,subprocess
names=[t for c in json.load(open('/verif/MANIFEST.json'))['claims'] for t in c['theorems']]
src='import Verif\n'+''.join('#print axioms %s\n'%n for n in names)
open('/tmp/ax.lean','w').write(src)
out=subprocess.run(['lake','env','lean','/tmp/ax.lean'],cwd='/verif/lean',capture_output=True,text=True).stdout
ax={}
for m in re.finditer(r"'([\w.]+)' (?:depends on axioms: \[([^\]]*)\]|does not depend on any axioms)",out,re.S):
    ax[m.group(1)]=re.sub(r'\s+',' ',m.group(2) or 'none')
missing=[n for n in names if n not in ax]
assert not missing,missing
with open('/verif/AXIOMS.md','w') as f:
    f.write('# Axioms per theorem (from `#print axioms`)\n\n| theorem | axioms |\n|---|---|\n')
    for n in names: f.write('| `%s` | %s |\n'%(n,ax[n]))
print(len(names),set(a for v in ax.values() for a in v.split(', ')))
