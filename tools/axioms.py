# Writes /verif/AXIOMS.md: the axioms every theorem of the manifest depends on, as the kernel reports them.
import json,subprocess,re,os
m=json.load(open('/verif/MANIFEST.json'))
names=[t for c in m['claims'] for t in c['theorems']]
os.makedirs('/tmp/ax',exist_ok=True)
open('/tmp/ax/Ax.lean','w').write('import Verif\n'+''.join(f'#print axioms {n}\n' for n in names))
out=subprocess.run(['lake','env','lean','/tmp/ax/Ax.lean'],cwd='/verif/lean',capture_output=True,text=True).stdout
ax={}
for s in re.split(r"(?m)^(?='\S+' (?:depends|does))",out):
    g=re.match(r"'(\S+)' depends on axioms: \[([^\]]*)\]",s)
    if g: ax[g.group(1)]=', '.join(x.strip() for x in g.group(2).split(','))
    g=re.match(r"'(\S+)' does not depend on any axioms",s)
    if g: ax[g.group(1)]='none'
missing=[n for n in names if n not in ax]
assert not missing,(missing,out[:500])
allowed={'propext','Classical.choice','Quot.sound','none'}
bad={n:a for n,a in ax.items() if not set(a.split(', '))<=allowed}
assert not bad,bad
with open('/verif/AXIOMS.md','w') as f:
    f.write('# Axioms of each theorem of the manifest\n\nGenerated by `tools/axioms.py` with `#print axioms`.\n\n| theorem | axioms |\n|---|---|\n')
    for n in names: f.write(f'| {n} | {ax[n]} |\n')
print(len(names),'theorems')
