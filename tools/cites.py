"""List the definitions of the model whose comment cites no file of /repo."""
import re, glob
for f in sorted(glob.glob('/verif/lean/Verif/Model/*.lean')):
    s = open(f).read()
    for m in re.finditer(r'(/--(?:(?!-/).)*-/\s*)?(?:@\[[^\]]*\]\s*)?^(?:mutual\s+)?(def|structure|inductive|abbrev|class|instance)\s+(\S+)', s, re.S | re.M):
        c = m[1] or ''
        if not re.search(r'\.rs|\.pest|\.proto', c):
            print(f.split('/')[-1], m[2], m[3], '|', ' '.join(c.split())[:150])
