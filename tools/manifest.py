import json,re,glob,sys,os
# collects theorems named Cnn_... from *Props.lean files and merges with notes in /verif/notes-like dict
exec(open('/verif/tools/manifest_notes.py').read())   # NOTES: id -> (status, note)
thms={}
import collections
allth=[]
for f in sorted(glob.glob('/verif/lean/Verif/**/*.lean',recursive=True)):
    ns=[]
    for line in open(f):
        m=re.match(r'^namespace (\S+)',line)
        if m: ns.append(m.group(1)); continue
        m=re.match(r'^end (\S+)',line)
        if m and ns and ns[-1]==m.group(1): ns.pop(); continue
        m=re.match(r'^(?:theorem|lemma) (C\d\d\d?_\S+)',line)
        if m: thms.setdefault(m.group(1).split('_')[0],[]).append('.'.join(ns+[m.group(1)]))
props=[json.loads(l)['id'] for l in open('/verif/properties.jsonl')]
claims=[]
for p in props:
    if p in NOTES:
        st,note=NOTES[p]
    else:
        st,note=('partial','Not proved yet.')
    claims.append(dict(property=p,status=st,theorems=thms.get(p,[]),note=note))
    if p in NOTES and st!='not_applicable' and not thms.get(p): print('no theorems for',p)
    if p not in NOTES and thms.get(p): print('missing note for',p,len(thms[p]))
    if st=='proved' and any(t.endswith('_partial') for t in thms.get(p,[])): print('proved with partial',p)
unk=set(thms)-set(props)
if unk: print('unknown ids',unk)
json.dump({'claims':claims},open('/verif/MANIFEST.json','w'),indent=1,ensure_ascii=False)
open('/verif/MANIFEST.json','a').write('\n')
print(len(claims),sum(len(c['theorems']) for c in claims))
