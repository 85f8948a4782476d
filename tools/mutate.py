"""Applies seeded bugs to a scratch copy of the model and records which theorems fail.

usage: mutate.py MUTANTS.py RESULTS.jsonl
MUTANTS.py defines M, a list of (file under lean/Verif, definition, old text, new text, claim broken).
"""
import json, os, re, shutil, subprocess, sys
src, scratch = '/verif/lean', '/tmp/mut/lean'
shutil.rmtree(scratch, ignore_errors=True)
# the committed sources, so that work in progress does not fail every mutant
os.makedirs(os.path.dirname(scratch), exist_ok=True)
subprocess.run('git -C /verif archive HEAD lean | tar -x -C ' + os.path.dirname(scratch), shell=True, check=True)
shutil.copytree(src + '/.lake', scratch + '/.lake', symlinks=True)
ns = {}
exec(open(sys.argv[1]).read(), ns)
M = ns['M']
done = set()
if os.path.exists(sys.argv[2]):
    for l in open(sys.argv[2]):
        r = json.loads(l)
        done.add((r['definition'], r['edit']))

DECL = re.compile(r'^\s*(?:@\[.*\]\s*)?(?:private |protected |noncomputable )*(theorem|lemma|def|instance|example|abbrev)\b\s*([^\s:({\[]*)')

def decl_at(path, line):
    ls = open(path).read().split('\n')
    for i in range(min(line, len(ls)) - 1, -1, -1):
        m = DECL.match(ls[i])
        if m:
            return m.group(2) or f'{m.group(1)}@{os.path.basename(path)}:{i+1}'
    return '?'

def build():
    r = subprocess.run(['lake', 'build'], cwd=scratch, capture_output=True, text=True)
    failed = []
    for m in re.finditer(r'^error: (Verif/\S+?\.lean):(\d+):', r.stdout + r.stderr, re.M):
        d = decl_at(os.path.join(scratch, m.group(1)), int(m.group(2)))
        if d not in failed:
            failed.append(d)
    return r.returncode, failed, r.stdout

for f, d, old, new, claim in M:
    edit = f'{old.strip()} -> {new.strip()}'
    if (d, edit) in done:
        continue
    p = os.path.join(scratch, 'Verif', f)
    s = open(p).read()
    k = s.find(d) if '@' not in d else s.find(d.split('@')[1])
    # the edit is applied to the first occurrence at or after the definition
    j = s.find('def ' + d)
    if j < 0:
        j = s.find(d)
    j = s.find(old, j)
    if j < 0:
        print('NOT FOUND', f, d, old)
        continue
    open(p, 'w').write(s[:j] + new + s[j + len(old):])
    rc, failed, out = build()
    open(p, 'w').write(s)
    rec = dict(definition=f'{f[:-5].replace("/", ".")}:{d}', edit=edit, claim=claim, failed=failed)
    rec['definition'] = d
    rec['file'] = f
    rec['survived'] = rc == 0
    if rc != 0 and not failed:
        rec['note'] = out[-400:]
    open(sys.argv[2], 'a').write(json.dumps(rec) + '\n')
    print('SURVIVED' if rc == 0 else 'killed', f, d, '|', new.strip()[:60], failed[:4], flush=True)
