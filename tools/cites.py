"""Print, for every source reference in the model comments, the first and last line referred to."""
import re, os, sys, glob
root = '/repo'
index = {}
for d, _, fs in os.walk(root):
    if '/.git' in d: continue
    for f in fs:
        index.setdefault(f, []).append(os.path.join(d, f))
def find(path, model):
    base = os.path.basename(path)
    c = index.get(base, [])
    if '/' in path:
        c2 = [x for x in c if x.endswith('/' + path)]
        c = c2 or c
    if len(c) > 1:
        psv = os.path.basename(model).startswith('Psv')
        c2 = [x for x in c if ('lib/primesieve' in x) == psv]
        c = c2 or c
    return c
for m in sorted(glob.glob('/verif/lean/Verif/Model/*.lean')):
    if len(sys.argv) > 1 and not re.search(sys.argv[1], m): continue
    text = open(m).read()
    for cm in re.finditer(r'/--(.*?)-/\s*(?:@\[[^\]]*\]\s*)?(\w+ [^\s:({]+)', text, re.S):
        comment, name = cm.group(1), cm.group(2)
        last = None
        for r in re.finditer(r'([\w/\-]+\.(?:cpp|hpp|h))?:(\d+)(?:-(\d+))?', comment):
            path = r.group(1) or last
            last = path
            if not path: continue
            a = int(r.group(2)); b = int(r.group(3) or a)
            fs = find(path, m)
            if len(fs) != 1:
                print('%-22s %-28s %s AMBIGUOUS %s' % (os.path.basename(m), name, r.group(0), fs)); continue
            L = open(fs[0], errors='replace').read().split('\n')
            g = lambda k: L[k-1].strip()[:60] if 0 < k <= len(L) else '???'
            print('%-18s %-30s %s:%d-%d | %s | %s' % (os.path.basename(m), name[:30], os.path.basename(path), a, b, g(a), g(b)))
