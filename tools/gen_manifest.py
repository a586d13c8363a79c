"""Collects the property theorems C<nn>_* from lean/Verif/Props into MANIFEST.json.

Status: a property is "partial" if any of its theorems ends in _partial or _violated, or if it is
listed in PARTIAL below; otherwise "proved".  NOTES holds the remarks.
"""
import json, os, re
from manifest_notes import NOTES, PARTIAL, NOT_APPLICABLE

ROOT = os.path.join(os.path.dirname(__file__), '..')
props = [json.loads(l) for l in open(os.path.join(ROOT, 'properties.jsonl'))]
thms = {p['id']: [] for p in props}
base = os.path.join(ROOT, 'lean', 'Verif', 'Props')
for f in sorted(os.listdir(base)):
    ns = []
    for line in open(os.path.join(base, f)):
        m = re.match(r'namespace (\S+)', line)
        if m:
            ns.append(m.group(1))
        m = re.match(r'end (\S+)', line)
        if m and ns and ns[-1] == m.group(1):
            ns.pop()
        m = re.match(r'theorem ((C\d\d+)_\S+)', line)
        if m and m.group(2) in thms:
            thms[m.group(2)].append('.'.join(ns + [m.group(1)]))
claims = []
for p in props:
    i = p['id']
    ts = thms[i]
    if i in NOT_APPLICABLE:
        claims.append({'property': i, 'status': 'not_applicable', 'theorems': [], 'note': NOT_APPLICABLE[i]})
        continue
    if not ts:
        continue
    bad = [t for t in ts if t.endswith('_partial') or t.endswith('_violated')]
    st = 'partial' if bad or i in PARTIAL else 'proved'
    note = NOTES.get(i, '')
    if i in PARTIAL:
        note = (note + ' ' + PARTIAL[i]).strip()
    claims.append({'property': i, 'status': st, 'theorems': ts, 'note': note or p['title']})
with open(os.path.join(ROOT, 'MANIFEST.json'), 'w') as f:
    f.write('{"claims": [\n' + ',\n'.join(' ' + json.dumps(c) for c in claims) + '\n]}\n')
print(len(claims), 'claims;', 'missing', [p['id'] for p in props if p['id'] not in {c['property'] for c in claims}])
