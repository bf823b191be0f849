"""Check that every definition of the model cites lines of /repo and that these lines exist."""
import glob, os, re, sys
repo = {}
for p in sorted(glob.glob('/repo/flory/**/*.py', recursive=True) + glob.glob('/repo/docs/**/*.rst', recursive=True)):
    repo[p] = len(open(p).read().split('\n'))
bad = n = 0
for f in sorted(glob.glob('/verif/lean/Verif/**/*.lean', recursive=True)):
    for k, line in enumerate(open(f), 1):
        for m in re.finditer(r'([\w/]+\.(?:py|rst)):(\d+)(?:-(\d+))?', line):
            n += 1
            hits = [p for p in repo if p.endswith('/' + m.group(1))]
            if not hits:
                print(f, k, 'no such file', m.group(0)); bad += 1
            elif int(m.group(3) or m.group(2)) > max(repo[p] for p in hits):
                print(f, k, 'beyond end of file', m.group(0)); bad += 1
print(n, 'citations,', bad, 'bad')
defs = 0
for f in sorted(glob.glob('/verif/lean/Verif/Model/*.lean') + glob.glob('/verif/lean/Verif/Gen/*.lean')):
    s = open(f).read()
    for m in re.finditer(r'^(?:@\[[^\]]*\]\s*)?(?:private |protected |noncomputable )*(?:def|structure|inductive|abbrev|instance|class)\s+(\S+)', s, re.M):
        defs += 1
        pre = s[:m.start()].rstrip()
        doc = pre[pre.rfind('/--'):] if pre.endswith('-/') else ''
        if not re.search(r'\.(py|rst):\d', doc):
            print(os.path.basename(f), m.group(1), 'has no citation'); bad += 1
print(defs, 'definitions')
sys.exit(bad > 0)
