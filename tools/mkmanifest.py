#!/usr/bin/env python3
"""Builds MANIFEST.json: collects the theorems named C<nn>_... from lean/Verif/Props and the notes below."""
import json, re, glob, os
root = os.path.dirname(os.path.dirname(os.path.abspath(__file__)))
ths = {}
for f in sorted(glob.glob(root + '/lean/Verif/Props/*.lean')):
    ns = []
    for line in open(f):
        m = re.match(r'namespace (\S+)', line)
        if m: ns.append(m.group(1))
        m = re.match(r'end (\S+)', line)
        if m and ns and ns[-1] == m.group(1): ns.pop()
        m = re.match(r'(?:protected )?theorem ((C\d\d)_\w+)', line)
        if m: ths.setdefault(m.group(2), []).append('.'.join(ns + [m.group(1)]))
notes = json.load(open(root + '/tools/notes.json'))
claims = []
for line in open(root + '/properties.jsonl'):
    p = json.loads(line)['id']
    if p not in ths: continue
    st, note = notes.get(p, ["proved", ""])
    claims.append({"property": p, "status": st, "theorems": ths[p], "note": note})
json.dump({"claims": claims}, open(root + '/MANIFEST.json', 'w'), indent=1)
print(len(claims), 'claims', sum(len(c['theorems']) for c in claims), 'theorems')
