#!/usr/bin/env python3
"""Test the theorems against wrong programs.

usage: mutate.py MUTATIONS.json [ids...]

Each mutation is {"id", "file" (relative to lean/Verif), "def", "old", "new", "claim"}. The project is
copied to /tmp/mut, the edit is applied to the copy, the copy is built, and the declarations in which
the build reports an error are printed, one JSON line per mutation, to /tmp/mut-results.jsonl.
"""
import json, os, re, shutil, subprocess, sys

SRC = os.environ.get('MUTSRC', '/verif/lean')
DST = '/tmp/mut/lean'

def decl_at(path, line):
    lines = open(path).read().split('\n')
    for i in range(min(line, len(lines)) - 1, -1, -1):
        m = re.match(r'^(?:@\[[^\]]*\]\s*)?(?:private |noncomputable )*(theorem|def|example|instance|abbrev)\b\s*(\S*)', lines[i])
        if m:
            return 'example@%d' % (i + 1) if m.group(1) == 'example' else m.group(2)
    return '?'

def main():
    muts = json.load(open(sys.argv[1]))
    only = set(sys.argv[2:])
    for m in muts:
        if only and m['id'] not in only:
            continue
        shutil.rmtree('/tmp/mut', ignore_errors=True)
        shutil.copytree(SRC, DST, symlinks=True)
        p = os.path.join(DST, 'Verif', m['file'])
        s = open(p).read()
        n = s.count(m['old'])
        if n < 1 or (n > 1 and not m.get('all')):
            print(m['id'], 'BAD EDIT', n, flush=True)
            continue
        open(p, 'w').write(s.replace(m['old'], m['new']))
        r = subprocess.run(['nice', 'lake', 'build'], cwd=DST, capture_output=True, text=True)
        out = r.stdout + r.stderr
        failed = []
        for f, l in re.findall(r'error: (Verif/\S+?\.lean):(\d+):\d+', out):
            d = decl_at(os.path.join(DST, f), int(l))
            name = f[6:-5] + ':' + d
            if name not in failed:
                failed.append(name)
        built = set(re.findall(r'[✔ℹ⚠] \[\d+/\d+\] (?:Built|Replayed) (Verif\.\S+)', out))
        res = {'id': m['id'], 'ok': r.returncode == 0, 'failed': failed}
        open('/tmp/mut-results.jsonl', 'a').write(json.dumps(res) + '\n')
        print(m['id'], 'SURVIVED' if r.returncode == 0 else 'killed', failed, flush=True)

main()
