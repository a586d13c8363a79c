"""Print and check the axioms of every theorem named in MANIFEST.json.

Run after `lake build`:  python3 tools/check_axioms.py
"""
import json, re, subprocess, tempfile, os
root = os.path.dirname(os.path.dirname(os.path.abspath(__file__)))
names = sorted({t for c in json.load(open(root + '/MANIFEST.json'))['claims'] for t in c['theorems']})
src = 'import Verif\n' + ''.join(f'#print axioms {n}\n' for n in names)
allowed = {'propext', 'Classical.choice', 'Quot.sound'}
with tempfile.NamedTemporaryFile('w', suffix='.lean', delete=False) as f:
    f.write(src)
out = subprocess.run(['lake', 'env', 'lean', f.name], cwd=root + '/lean', capture_output=True, text=True).stdout
os.unlink(f.name)
out = re.sub(r'\n\s+', ' ', out)
seen, bad = {}, []
for line in out.splitlines():
    m = re.match(r"'(\S+)' depends on axioms: \[(.*)\]", line)
    if m:
        seen[m.group(1)] = set(x.strip() for x in m.group(2).split(','))
    m = re.match(r"'(\S+)' does not depend on any axioms", line)
    if m:
        seen[m.group(1)] = set()
for n in names:
    short = [v for k, v in seen.items() if k == n or k.endswith('.' + n)]
    if not short:
        bad.append((n, 'not found'))
    elif not short[0] <= allowed:
        bad.append((n, sorted(short[0] - allowed)))
print(len(names), 'theorems;', len(bad), 'problems')
for b in bad:
    print(*b)
