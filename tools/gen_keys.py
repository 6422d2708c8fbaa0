import re
src=open('/repo/src/css/model.rs').read().split('\n')
s=next(i for i,l in enumerate(src) if 'pub enum PropertyKey' in l)
keys=[];i=s+1
while src[i].strip()!='}':
    m=re.match(r'\s*(\w+),',src[i]); 
    if m: keys.append(m.group(1))
    i+=1
e=i
p=next(i for i,l in enumerate(src) if 'pub fn parse(name: &str) -> Option<Self>' in l)
tab=[];i=p
while '_ => return None' not in src[i]:
    m=re.match(r'\s*"([^"]+)" => Self::(\w+),',src[i])
    if m: tab.append(m.groups())
    i+=1
print(len(keys),len(tab),s+1,e+1,p+1,i+1)
o=f'''/-!
# CSS property keys (`src/css/model.rs` {s+1}-{e+1} and {p+1}-{i+1})

Generated from the source by `tools/gen_keys.py`: the enumeration and the table of names.
-/
namespace Verif

/-- `css/model.rs` {s+1}-{e+1} `PropertyKey`. -/
inductive PropertyKey where
'''
for k in keys: o+=f'  | {k}\n'
o+='deriving DecidableEq, Repr\n\n'
o+=f'/-- `css/model.rs` {p+1}-{i+1}: the arms of `PropertyKey::parse`. -/\ndef PropertyKey.table : List (String × PropertyKey) := [\n'
o+=',\n'.join(f'  ("{a}", .{b})' for a,b in tab)+']\n\n'
o+=f'''/-- `css/model.rs` {p}-{i+4} `PropertyKey::parse`: the first arm whose name is equal. -/
def PropertyKey.parse (name : String) : Option PropertyKey := PropertyKey.table.lookup name

end Verif
'''
open('/verif/lean/Verif/Css/PropertyKey.lean','w').write(o)
