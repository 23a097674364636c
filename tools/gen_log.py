#!/usr/bin/env python3
"""usage: gen_log.py MUTATIONS.json RESULTS.jsonl [TIGHTENED.json] >> seeded/LOG.jsonl"""
import json, sys
res = {}
for l in open(sys.argv[2]):
    r = json.loads(l)
    res[r['id']] = r
tight = json.load(open(sys.argv[3])) if len(sys.argv) > 3 else {}
for m in json.load(open(sys.argv[1])):
    r = res.get(m['id'])
    if r is None:
        continue
    print(json.dumps({
        "definition": m['file'] + ':' + m['def'],
        "edit": {"old": m['old'], "new": m['new']},
        "claim": m['claim'],
        "failed": r['failed'],
        "tightened": tight.get(m['id'], [])}, ensure_ascii=False))
