#!/usr/bin/env python3
"""Print the axioms of all property theorems as a Markdown table and put it into DESIGN.md.

Run after `lake build` in /verif/lean."""
import glob, os, re, subprocess, tempfile
root = os.path.dirname(os.path.dirname(os.path.abspath(__file__)))
names = []
for f in sorted(glob.glob(os.path.join(root, 'lean/Verif/Props/*.lean'))):
    ns = 'Verif.Props'
    names += [ns + '.' + n for n in re.findall(r'^theorem (C\d+_\S+)', open(f).read(), re.M)]
with tempfile.NamedTemporaryFile('w', suffix='.lean', delete=False) as t:
    t.write('import Verif\n' + ''.join(f'#print axioms {n}\n' for n in names))
out = subprocess.run(['lake', 'env', 'lean', t.name], cwd=os.path.join(root, 'lean'), capture_output=True, text=True).stdout
out = re.sub(r'\n\s+', ' ', out)
ax = {}
for m in re.finditer(r"'(\S+)' (?:depends on axioms: \[(.*?)\]|does not depend on any axioms)", out):
    ax[m.group(1)] = m.group(2) or 'none'
groups = {}
for n in names:
    groups.setdefault(ax.get(n, 'UNKNOWN'), []).append(n.split('.')[-1])
lines = []
for a, ns in sorted(groups.items(), key=lambda x: -len(x[1])):
    lines.append(f'* {a}: ' + ', '.join(sorted(f'`{n}`' for n in ns)))
p = os.path.join(root, 'DESIGN.md')
s = open(p).read()
b, e = '<!-- axioms begin -->\n', '<!-- axioms end -->'
i, j = s.index(b) + len(b), s.index(e)
open(p, 'w').write(s[:i] + '\n'.join(lines) + '\n' + s[j:])
print({a: len(n) for a, n in groups.items()})
