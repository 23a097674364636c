#!/usr/bin/env python3
"""Regenerate MANIFEST.json: theorem names are collected from lean/Verif/Props, notes from tools/notes.txt.

notes.txt: one line per property, 'Cnn|status|note'."""
import json, os, re, glob
root = os.path.join(os.path.dirname(os.path.abspath(__file__)), '..')
thms = {}
for f in sorted(glob.glob(os.path.join(root, 'lean/Verif/Props/*.lean'))):
    for m in re.finditer(r'^theorem (C\d\d+)(_\w+)', open(f).read(), re.M):
        thms.setdefault(m.group(1), []).append('Pdf.' + m.group(1) + m.group(2))
claims = []
for line in open(os.path.join(root, 'tools/notes.txt')):
    line = line.rstrip('\n')
    if not line:
        continue
    pid, status, note = line.split('|', 2)
    claims.append({'property': pid, 'status': status, 'theorems': thms.pop(pid, []), 'note': note})
for pid in thms:
    print('no note for', pid)
json.dump({'claims': claims}, open(os.path.join(root, 'MANIFEST.json'), 'w'), indent=1, ensure_ascii=False)
