"""Merges result files of mutate.py into seeded/LOG.jsonl.

usage: seedlog.py RESULTS.jsonl...
TIGHT maps (definition, start of edit) to the theorems added because the mutant survived, or to the
reason why a surviving mutant does not break a claim."""
import json, sys
exec(open('/verif/tools/tight.py').read())
rows = []
for f in sys.argv[1:]:
    for l in open(f):
        r = json.loads(l)
        key = next((k for k in TIGHT if k[0] == r['definition'] and (r['edit'].startswith(k[1]) or r['survived'] and k[1] in r['edit'])), None)
        o = dict(definition=f"lean/Verif/{r['file']}: {r['definition']}", edit=r['edit'], claim=r['claim'],
                 failed=r['failed'], tightened=[])
        if r['survived']:
            t = TIGHT[key] if key else None
            if isinstance(t, str):
                o['note'] = t
            elif t:
                o['tightened'] = t
            else:
                print('survivor without entry', r['definition'], r['edit'])
        rows.append(o)
with open('/verif/seeded/LOG.jsonl', 'w') as f:
    for o in rows:
        f.write(json.dumps(o, ensure_ascii=False) + '\n')
print(len(rows))
