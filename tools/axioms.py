"""Write /verif/AXIOMS.md: the axioms each manifest theorem depends on, as printed by Lean."""
import json, os, re, subprocess, tempfile
root = os.path.dirname(os.path.dirname(os.path.abspath(__file__)))
claims = json.load(open(root + '/MANIFEST.json'))['claims']
names = [t for c in claims for t in c['theorems']]
src = 'import Verif\n' + '\n'.join('#print axioms ' + n for n in names) + '\n'
with tempfile.NamedTemporaryFile('w', suffix='.lean', delete=False) as f: f.write(src)
out = subprocess.run(['lake', 'env', 'lean', f.name], cwd=root + '/lean', capture_output=True, text=True).stdout
os.unlink(f.name)
out = re.sub(r',\s+', ', ', out)
ax = {}
for m in re.finditer(r"'([^']+(?:'[^' ]*)*)' (?:depends on axioms: \[([^\]]*)\]|does not depend on any axioms)", out):
    ax[m.group(1)] = m.group(2) or 'none'
with open(root + '/AXIOMS.md', 'w') as f:
    f.write('# Axioms per theorem\n\nOutput of `#print axioms` (regenerate with `tools/axioms.py` after `lake build`).\n\n')
    f.write('| property | theorem | axioms |\n|---|---|---|\n')
    for c in claims:
        for t in c['theorems']:
            f.write('| %s | `%s` | %s |\n' % (c['property'], t, ax.get(t, 'MISSING')))
print(len(names), 'theorems;', sum(n not in ax for n in names), 'missing;', sorted({a for v in ax.values() for a in v.split(', ')}))
