"""Regenerates MANIFEST.json from claims.py and lean/Verif.lean from the module tree."""
import json, os
base = os.path.dirname(os.path.dirname(os.path.abspath(__file__)))
C = {}
def c(p, status, thms, note): C[p] = (status, thms.split(), note)
exec(open(os.path.join(base, 'tools/claims.py')).read())
out = {"claims": [{"property": p, "status": s, "theorems": ["Reveaal." + t for t in th], "note": n}
                  for p, (s, th, n) in sorted(C.items())]}
json.dump(out, open(os.path.join(base, 'MANIFEST.json'), 'w'), indent=1)
mods = []
for r, _, fs in os.walk(os.path.join(base, 'lean/Verif')):
    for f in fs:
        if f.endswith('.lean'):
            mods.append(os.path.relpath(os.path.join(r, f), os.path.join(base, 'lean'))[:-5].replace('/', '.'))
open(os.path.join(base, 'lean/Verif.lean'), 'w').write(''.join(f'import {m}\n' for m in sorted(mods)))
