"""Seeds wrong programs into a scratch copy of the model and reports which theorems fail.

usage: mutate.py MUTATIONS.json    (a list of {file, old, new, definition, edit, breaks})
Appends one line per attempt to seeded/LOG.jsonl; an attempt that no theorem notices is printed as SURVIVED.
"""
import json, os, re, signal, subprocess, sys, threading
base = os.path.dirname(os.path.dirname(os.path.abspath(__file__)))
scratch = '/tmp/mut/lean'
os.makedirs('/tmp/mut', exist_ok=True)
src = '/tmp/mut/base'
subprocess.run(f'rm -rf {src}; mkdir -p {src}; git -C {base} archive HEAD lean | tar x -C {src}', shell=True, check=True)
def sync():
    for r, _, fs in os.walk(src + '/lean/Verif'):
        for f in fs:
            a = os.path.join(r, f); b = scratch + a[len(src + '/lean'):]
            t = open(a).read()
            if not os.path.exists(b) or open(b).read() != t:
                os.makedirs(os.path.dirname(b), exist_ok=True); open(b, 'w').write(t)
    t = open(src + '/lean/Verif.lean').read()
    if open(scratch + '/Verif.lean').read() != t: open(scratch + '/Verif.lean', 'w').write(t)
def owner(path, line):
    lines = open(os.path.join(scratch, path)).read().split('\n')
    for i in range(line - 1, -1, -1):
        m = re.match(r'(?:@\[[^\]]*\] *)?(?:private |noncomputable |protected )*(theorem|def|example|instance|lemma)\b ?([^\s:({\[]*)', lines[i])
        if m: return m.group(2) if m.group(1) != 'example' else f'example in {path}'
    return path
def build(grace=25):
    """Builds until some seconds after the first failing theorem."""
    q = subprocess.Popen(['nice', 'lake', 'build'], cwd=scratch, stdout=subprocess.PIPE, stderr=subprocess.STDOUT, text=True, start_new_session=True)
    txt = ''
    for l in q.stdout:
        txt += l
        if re.match(r'error: Verif/\S+?\.lean:\d+', l) and grace:
            threading.Timer(grace, lambda: q.poll() is None and os.killpg(q.pid, signal.SIGKILL)).start()
            grace = 0
    return txt, q.wait()
if not os.path.exists(scratch):
    subprocess.run(['cp', '-a', base + '/lean', scratch], check=True)
for m in json.load(open(sys.argv[1])):
    sync()
    p = os.path.join(scratch, m['file'])
    s = open(p).read()
    n = s.count(m['old'])
    if n == 0:
        print('NOT FOUND', m['definition'], m['edit']); continue
    if n > 1 and not m.get('all'):
        i = s.index(m.get('after', '')) if m.get('after') else 0
        j = s.index(m['old'], i)
        s = s[:j] + m['new'] + s[j + len(m['old']):]
    else: s = s.replace(m['old'], m['new'])
    open(p, 'w').write(s)
    txt, code = build()
    failed = []
    for f, l in re.findall(r'error: (Verif/\S+?\.lean):(\d+):\d+', txt):
        o = owner(f, int(l))
        if o not in failed: failed.append(o)
    e = {'definition': m['definition'], 'edit': m['edit'], 'claim_broken': m['breaks'], 'theorems_failed': failed, 'theorems_tightened': m.get('tightened', [])}
    if not failed:
        print('SURVIVED' if code == 0 else 'BUILD FAILED ' + txt[-500:], m['definition'], '|', m['edit'], flush=True)
        e['outcome'] = 'survived'
    else:
        print('killed', m['definition'], '|', m['edit'], '->', ', '.join(failed[:6]), flush=True)
    open(os.path.join(base, 'seeded/LOG.jsonl' if failed or m.get('log') else 'seeded/.survivors'), 'a').write(json.dumps(e) + '\n')
