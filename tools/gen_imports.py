"""Regenerate lean/Verif.lean from the files under lean/Verif."""
import os
root = os.path.join(os.path.dirname(os.path.abspath(__file__)), '..', 'lean')
os.chdir(root)
mods = []
for d, _, fs in os.walk('Verif'):
    for f in fs:
        if f.endswith('.lean'):
            mods.append(os.path.join(d, f)[:-5].replace('/', '.'))
order = {'Model': 0, 'Spec': 1, 'Proofs': 2, 'Witness': 3, 'Props': 4}
mods.sort(key=lambda m: (order[m.split('.')[1]], m))
open('Verif.lean', 'w').write(''.join(f'import {m}\n' for m in mods))
