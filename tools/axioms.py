"""Writes AXIOMS.md: the axioms every theorem of MANIFEST.json depends on, as Lean prints them."""
import json, re, subprocess
m = json.load(open('/verif/MANIFEST.json'))
names = [t for c in m['claims'] for t in c['theorems']]
open('/tmp/axioms.lean', 'w').write('import Verif\n' + '\n'.join(f'#print axioms {t}' for t in names))
out = subprocess.run(['lake', 'env', 'lean', '/tmp/axioms.lean'], cwd='/verif/lean', capture_output=True, text=True).stdout
out = out.replace('\n ', ' ')
got = dict(re.findall(r"'(\S+)' (depends on axioms: \[.*?\]|does not depend on any axioms)", out))
lines = ['# Axioms', '', 'Printed by `#print axioms` (`tools/axioms.py`).', '', '| Property | Theorem | Axioms |', '|---|---|---|']
for c in m['claims']:
    for t in c['theorems']:
        a = got[t].replace('depends on axioms: ', '').strip('[]').replace('does not depend on any axioms', 'none')
        lines.append(f"| {c['property']} | `{t.removeprefix('Reveaal.')}` | {a} |")
open('/verif/AXIOMS.md', 'w').write('\n'.join(lines) + '\n')
