"""Regenerate the generated parts of /verif/DESIGN.md (findings, coverage) from notes.json, MANIFEST.json and the model files."""
import json, re, glob, os
root = os.path.dirname(os.path.dirname(os.path.abspath(__file__)))
props = {json.loads(l)['id']: json.loads(l) for l in open(root + '/properties.jsonl')}
claims = json.load(open(root + '/MANIFEST.json'))['claims']
s = open(root + '/DESIGN.md').read()
i, j = s.index('## 4. '), s.index('## 7. ')
out = ['## 4. Findings (places where the code does not satisfy the property)\n\n',
       'Each has a theorem `..._violated`, a concrete execution of the model; the part that holds is `..._partial`.\n\n']
for c in claims:
    v = [t.split('.')[-1] for t in c['theorems'] if t.endswith('_violated')]
    if v: out.append('* **%s** (%s): %s\n' % (c['property'], ', '.join('`%s`' % t for t in v), c['note']))
out.append('\nPartial for other reasons:\n\n')
for c in claims:
    if c['status'] == 'partial' and not any(t.endswith('_violated') for t in c['theorems']):
        out.append('* **%s**: %s\n' % (c['property'], c['note']))
out.append('\n## 5. Axioms per theorem\n\nSee `AXIOMS.md`, the output of `#print axioms` for every theorem of the manifest '
           '(`tools/axioms.py` regenerates it).  Only `propext`, `Classical.choice` and `Quot.sound` occur.\n')
out.append('\n## 6. Modelled code\n\nFor each model module: the number of definitions and the source lines cited in their comments. '
           'Everything not listed here is not modelled.\n\n')
for f in sorted(glob.glob(root + '/lean/Verif/Model/*.lean')):
    t = open(f).read()
    nd = len(re.findall(r'^(?:@\[[^\]]*\] *)?(?:noncomputable )?(?:def|abbrev|structure|inductive) ', t, re.M))
    cites = {}
    for m in re.finditer(r'(?:/repo/)?([A-Za-z0-9_/]+\.(?:py|c|h)):([0-9]+(?:-[0-9]+)?(?:, ?[0-9]+(?:-[0-9]+)?)*)', t):
        cites.setdefault(m.group(1), []).extend(re.split(r', ?', m.group(2)))
    full = set(re.findall(r'/repo/([A-Za-z0-9_/]+\.(?:py|c|h))', t))
    merged = {}
    for k, v in cites.items():
        kk = next((x for x in sorted(full) if x == k or x.endswith('/' + k)), k)
        merged.setdefault(kk, []).extend(v)
    for x in full: merged.setdefault(x, [])
    key = lambda r: tuple(int(x) for x in r.split('-'))
    out.append('* `Model/%s` (%d definitions): %s\n' % (os.path.basename(f), nd, '; '.join(
        '`%s` %s' % (k, ', '.join(sorted(set(v), key=key))) for k, v in sorted(merged.items())) or 'library semantics only'))
out.append('\n')
open(root + '/DESIGN.md', 'w').write(s[:i] + ''.join(out) + s[j:])
