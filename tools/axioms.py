"""List the axioms of every theorem named in MANIFEST.json, grouped by axiom set."""
import json, re, subprocess, tempfile, os
claims = json.load(open('/verif/MANIFEST.json'))['claims']
names = []
for c in claims:
    for t in c['theorems']:
        if t not in names:
            names.append(t)
with tempfile.NamedTemporaryFile('w', suffix='.lean', delete=False) as f:
    f.write('import Verif\n' + ''.join('#print axioms %s\n' % n for n in names))
out = subprocess.run(['lake', 'env', 'lean', f.name], cwd='/verif/lean', capture_output=True, text=True)
os.unlink(f.name)
text = out.stdout.replace('\n ', ' ')
groups = {}
for m in re.finditer(r"'([^']+)' (?:depends on axioms: \[([^\]]*)\]|does not depend on any axioms)", text):
    groups.setdefault(', '.join(sorted((m.group(2) or 'none').split(', '))), []).append(m.group(1).replace('Verif.', ''))
assert sum(map(len, groups.values())) == len(names), (out.stdout[:2000], out.stderr)
for g, ns in sorted(groups.items()):
    print('* %s: %s.' % (g, ', '.join('`%s`' % n for n in ns)))
