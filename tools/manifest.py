#!/usr/bin/env python3
"""Regenerate MANIFEST.json from the theorem names Cnn_* in lean/Verif/Props and the notes below."""
import json, re, glob, collections, os
root = os.path.dirname(os.path.dirname(os.path.abspath(__file__)))
thms = collections.OrderedDict()
for f in sorted(glob.glob(root + '/lean/Verif/Props/*.lean')):
    for m in re.finditer(r'^theorem (C(\d\d+)_\w+)', open(f).read(), re.M):
        thms.setdefault('C' + m.group(2), []).append('Warc.' + m.group(1))
notes = json.load(open(root + '/tools/notes.json'))
claims = []
for l in open(root + '/properties.jsonl'):
    d = json.loads(l)
    i = d['id']
    ts = thms.get(i, [])
    n = notes.get(i, {})
    if isinstance(n, str): n = {"note": n}
    if not ts:
        print('no theorem for', i)
        continue
    claims.append({"property": i, "status": n.get("status", "proved"), "theorems": ts, "note": n.get("note", "")})
open(root + '/MANIFEST.json', 'w').write('{"claims": [\n' + ',\n'.join(' ' + json.dumps(c) for c in claims) + '\n]}\n')
