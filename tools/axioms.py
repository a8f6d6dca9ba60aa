#!/usr/bin/env python3
"""Write AXIOMS.md: the axioms of every property theorem, as printed by Lean."""
import glob, os, re, subprocess
root = os.path.dirname(os.path.dirname(os.path.abspath(__file__)))
names = []
for p in sorted(glob.glob(root + '/lean/Verif/Props/*.lean')):
    names += re.findall(r"^theorem (C\d\d_\w+)", open(p).read(), re.M)
names.sort()
src = 'import Verif\n' + ''.join(f'#print axioms Argtable.{n}\n' for n in names)
out = subprocess.run(['lake', 'env', 'lean', '--stdin'], input=src, text=True, capture_output=True,
                     cwd=root + '/lean').stdout
ax = {}
for m in re.finditer(r"'Argtable\.(\w+)' (?:depends on axioms: \[([^\]]*)\]|does not depend on any axioms)", out):
    ax[m.group(1)] = [a.strip() for a in (m.group(2) or '').split(',') if a.strip()]
missing = [n for n in names if n not in ax]
groups = {}
for n in names:
    if n in ax:
        groups.setdefault(tuple(sorted(ax[n])), []).append(n)
with open(root + '/AXIOMS.md', 'w') as f:
    f.write('# Axioms of the property theorems\n\nOutput of `#print axioms`, grouped (`tools/axioms.py`).\n')
    for g, ns in sorted(groups.items(), key=lambda x: len(x[0])):
        f.write('\n## ' + (', '.join(g) or 'none') + '\n\n' + ', '.join(ns) + '\n')
print(len(ax), 'theorems; missing:', missing, '; axioms:', sorted({a for g in groups for a in g}))
