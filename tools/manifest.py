import json,re,glob,sys
# status/notes table
notes=json.load(open('/verif/tools/notes.json'))
thms={}
for f in glob.glob('/verif/lean/Verif/Props/*.lean'):
    ns=[]
    for l in open(f):
        m=re.match(r'namespace\s+(\S+)',l)
        if m: ns.append(m.group(1))
        m=re.match(r'end\s+(\S+)',l)
        if m and ns and ns[-1]==m.group(1): ns.pop()
        m=re.match(r'(?:private )?theorem\s+((C\d\d\d?)_\S+)',l)
        if m:
            thms.setdefault(m.group(2),[]).append('.'.join(ns+[m.group(1)]))
claims=[]
for l in open('/verif/properties.jsonl'):
    i=json.loads(l)['id']
    if i in thms:
        st=notes.get(i,["proved",""])
        claims.append(dict(property=i,status=st[0],theorems=thms[i],note=st[1]))
    elif i in notes and notes[i][0]=='not_applicable':
        claims.append(dict(property=i,status='not_applicable',theorems=[],note=notes[i][1]))
    else: print('missing',i,file=sys.stderr)
json.dump(dict(claims=claims),open('/verif/MANIFEST.json','w'),indent=1)
