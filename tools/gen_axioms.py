"""Print, for DESIGN.md, the axioms of every theorem listed in MANIFEST.json (after a build of lean/)."""
import json, os, re, subprocess, tempfile
root = os.path.join(os.path.dirname(os.path.abspath(__file__)), '..')
claims = json.load(open(os.path.join(root, 'MANIFEST.json')))['claims']
names = [t for c in claims for t in c['theorems']]
with tempfile.NamedTemporaryFile('w', suffix='.lean', delete=False) as f:
    f.write('import Verif\n' + ''.join(f'#print axioms {n}\n' for n in names))
out = subprocess.run(['lake', 'env', 'lean', f.name], cwd=os.path.join(root, 'lean'), capture_output=True, text=True).stdout
out = re.sub(r'\s+', ' ', out)
groups = {}
for m in re.finditer(r"'([^']+)' (?:depends on axioms: \[([^\]]*)\]|does not depend on any axioms)", out):
    groups.setdefault(m.group(2) or 'none', []).append(m.group(1).removeprefix('Pdf.'))
total = sum(len(v) for v in groups.values())
text = f'{total} theorems (of {len(names)} in MANIFEST.json).\n'
for k, v in sorted(groups.items(), key=lambda kv: len(kv[1])):
    text += f'\n* **{k}** ({len(v)}): ' + ', '.join(v) + '\n'
p = os.path.join(root, 'DESIGN.md')
s = open(p).read()
a, b = '<!-- axioms -->\n', '<!-- end axioms -->'
i, j = s.index(a) + len(a), s.index(b)
open(p, 'w').write(s[:i] + text + s[j:])
