#!/usr/bin/env python3
"""Seeded-bug testing.  usage: seed.py mutations.json
Each mutation: {"file","definition","old","new","claim","property"} and optionally a "target" to build.  Works in a scratch copy; appends one line
per mutation to seeded/LOG.jsonl."""
import json, os, re, shutil, subprocess, sys
SRC = '/verif/lean'; DST = '/tmp/seed/lean'
def sync():
    os.makedirs('/tmp/seed', exist_ok=True)
    subprocess.run(['rsync', '-a', '--delete', SRC + '/', DST + '/'], check=False) if shutil.which('rsync') else \
        subprocess.run(f'rm -rf {DST} && cp -a {SRC} {DST}', shell=True, check=True)
def decl(path, line):
    name = '?'
    for l in open(path).read().split('\n')[:line]:
        m = re.match(r'\s*(?:private |protected |noncomputable |@\[[^\]]*\] )*(?:theorem|def|lemma|instance|example|structure)\s*(\S*)', l)
        if m and not l.startswith('    '): name = m.group(1).rstrip(':') or 'example'
    return name
def main():
    muts = json.load(open(sys.argv[1]))
    sync()
    for m in muts:
        p = f"{DST}/Verif/{m['file']}"
        orig = open(p).read()
        if orig.count(m['old']) < 1:
            print('NOT FOUND', m['definition'], m['old']); continue
        open(p, 'w').write(orig.replace(m['old'], m['new'], 1))
        r = subprocess.run('lake build ' + m.get('target', '') + ' 2>&1', shell=True, cwd=DST, capture_output=True, text=True)
        failed = []
        for f, l in re.findall(r'error: (Verif/\S+?\.lean):(\d+):', r.stdout):
            n = decl(f'{DST}/{f}', int(l))
            e = f"{f[6:-5].replace('/', '.')}: {n}"
            if e not in failed: failed.append(e)
        open(p, 'w').write(orig)
        ok = r.returncode == 0
        rec = {"definition": m['definition'], "edit": f"{m['old']}  ==>  {m['new']}", "claim_broken": m['claim'],
               "property": m['property'], "theorems_failed": failed, "theorems_tightened": [],
               "outcome": "NOT DETECTED" if ok else "detected"}
        print(rec['outcome'], m['definition'], failed[:4], flush=True)
        if ok or '--dry' in sys.argv:
            open('/tmp/seed/undetected.jsonl', 'a').write(json.dumps(rec, ensure_ascii=False) + '\n')
        else:
            open('/verif/seeded/LOG.jsonl', 'a').write(json.dumps(rec, ensure_ascii=False) + '\n')
main()
