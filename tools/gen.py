#!/usr/bin/env python3
"""Regenerate MANIFEST.json and lean/Verif/Audit.lean from the property theorems in lean/Verif/Props.

Every theorem named Cnn_... in lean/Verif/Props/*.lean is a property theorem of Cnn.
Status and notes come from tools/status.json."""
import json, re, glob, os
root = os.path.dirname(os.path.dirname(os.path.abspath(__file__)))
status = json.load(open(root + '/tools/status.json'))
thms = {}
mods = []
for f in sorted(glob.glob(root + '/lean/Verif/Props/*.lean')):
    src = open(f).read()
    ns = []
    mods.append('Verif.Props.' + os.path.basename(f)[:-5])
    for line in src.split('\n'):
        m = re.match(r'namespace (\S+)', line)
        if m: ns.append(m.group(1)); continue
        m = re.match(r'end (\S+)', line)
        if m and ns and ns[-1] == m.group(1): ns.pop(); continue
        m = re.match(r'theorem ((C\d+)_\w+)', line)
        if m:
            thms.setdefault(m.group(2), []).append('.'.join(ns + [m.group(1)]))
props = [json.loads(l)['id'] for l in open(root + '/properties.jsonl')]
claims = []
for c in props:
    st = status.get(c, {})
    if c in thms:
        claims.append({'property': c, 'status': st.get('status', 'proved'), 'theorems': thms[c], 'note': st.get('note', '')})
    elif 'status' in st:
        claims.append({'property': c, 'status': st['status'], 'theorems': [], 'note': st.get('note', '')})
json.dump({'claims': claims}, open(root + '/MANIFEST.json', 'w'), indent=1, ensure_ascii=False)
with open(root + '/lean/Verif/Audit.lean', 'w') as o:
    for m in mods: o.write('import %s\n' % m)
    o.write('/-! Axiom audit of every property theorem (generated by tools/gen.py). -/\n')
    for c in sorted(thms):
        for t in thms[c]: o.write('#print axioms %s\n' % t)
with open(root + '/lean/Verif.lean', 'w') as o:
    for m in mods: o.write('import %s\n' % m)
    o.write('import Verif.Audit\n')
missing = [c for c in props if c not in thms]
print('theorems', sum(map(len, thms.values())), 'properties', len(thms), 'missing', missing)
