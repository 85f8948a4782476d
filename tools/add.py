"""Reads a Python literal from stdin: a dict with optional keys
props  : list of (id, title, statement, quantifier, why, anchors, design_model, design_proof)
notes  : dict id -> (status, note)
dis    : list of disagreement texts (appended to DESIGN section 4)
mods   : list of Lean modules to import
"""
import ast, json, re, sys
d = ast.literal_eval(sys.stdin.read())
root = '/verif/'
D = open(root + 'DESIGN.md').read()
with open(root + 'properties.jsonl', 'a') as f:
    for p in d.get('props', []):
        i, t, s, q, w, a, m, pr = p
        f.write(json.dumps(dict(id=i, title=t, statement=s, quantifier=q, why_tests_cant=w, anchors=a)) + '\n')
        row = f'| {i} | {m} | {pr} |\n'
        k = D.index('\n## 4.')
        D = D[:k] + row + D[k:]
D = D.replace('|\n\n| C', '|\n| C')
n = len(re.findall(r'^\d+\. \*\*', D[D.index('## 4.'):], re.M))
for t in d.get('dis', []):
    n += 1
    D = D.rstrip('\n') + f'\n{n}. {t}\n'
open(root + 'DESIGN.md', 'w').write(D)
N = open(root + 'tools/manifest_notes.py').read().rstrip()
assert N.endswith('}')
N = N[:-1]
for k, v in d.get('notes', {}).items():
    N += f'{k!r}:{v!r},\n'
open(root + 'tools/manifest_notes.py', 'w').write(N + '}\n')
V = open(root + 'lean/Verif.lean').read().rstrip() + '\n'
for m in d.get('mods', []):
    if f'import {m}\n' not in V:
        V += f'import {m}\n'
open(root + 'lean/Verif.lean', 'w').write(V)
