"""Regenerate /verif/MANIFEST.json from the theorem names in lean/Verif/Props."""
import json, re, glob, os
root = os.path.dirname(os.path.dirname(os.path.abspath(__file__)))
props = [json.loads(l) for l in open(root + '/properties.jsonl')]
notes = json.load(open(root + '/tools/notes.json'))
thms = {}
for f in sorted(glob.glob(root + '/lean/Verif/Props/*.lean')):
    ns = []
    for line in open(f):
        m = re.match(r'(?:noncomputable |public )*(namespace|section|mutual)\b ?(\S*)', line)
        if m: ns.append(m.group(2) if m.group(1) == 'namespace' else '')
        elif re.match(r'end\b(?! *-/)', line): ns.pop() if ns else print('unbalanced end', f, line)
        m = re.match(r'(?:protected )?theorem (C(\d+)_\S+)', line)
        if m: thms.setdefault('C' + m.group(2), []).append('.'.join([x for x in ns if x] + [m.group(1)]))
claims = []
for p in props:
    i = p['id']
    t = thms.get(i, [])
    n = notes.get(i, {})
    if not t: st = n.get('status', 'not_applicable')
    elif 'status' in n: st = n['status']
    elif any(x.endswith('_violated') or x.endswith('_partial') for x in t): st = 'partial'
    else: st = 'proved'
    claims.append(dict(property=i, status=st, theorems=t, note=n.get('note', '' if t else 'not modelled yet')))
json.dump({'claims': claims}, open(root + '/MANIFEST.json', 'w'), indent=1)
from collections import Counter
print(Counter(c['status'] for c in claims), sum(len(c['theorems']) for c in claims))
missing = set(thms) - {p['id'] for p in props}
if missing: print('theorems without property:', missing)
